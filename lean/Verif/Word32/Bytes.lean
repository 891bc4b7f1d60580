import Verif.Word32.Split
import Verif.WCurve.Model

/-!
# 32-bit digits: bytes in memory, comparisons, random numbers, scalars
-/

namespace Secuer.Word32

open Secuer.Word (UInt Bit bit_zero u0 u1 leNat_append leNat_take modify_last)
open Secuer.Field Secuer.Scalar

theorem digit_leNat (d : Digit) (k : ℕ) :
    leNat ((List.range k).map fun i => UInt8.ofBitVec ((d >>> (8 * i)).setWidth 8)) = d.toNat % 256 ^ k := by
  induction k with
  | zero => rw [pow_zero, Nat.mod_one]; rfl
  | succ k ih =>
    rw [List.range_succ, List.map_append, leNat_append, ih, List.length_map, List.length_range, Nat.pow_succ,
      Nat.mod_mul]
    congr 2
    show (UInt8.ofBitVec ((d >>> (8 * k)).setWidth 8)).toNat + 256 * 0 = _
    rw [Nat.mul_zero, Nat.add_zero, UInt8.toNat_ofBitVec, BitVec.toNat_setWidth, BitVec.toNat_ushiftRight,
      Nat.shiftRight_eq_div_pow, Nat.pow_mul]

theorem digitBytes_length (x : List Digit) : (digitBytes x).length = 4 * x.length := by
  induction x with
  | nil => rfl
  | cons d x ih =>
    rw [digitBytes, List.flatMap_cons, List.length_append, List.length_map, List.length_range, List.length_cons]
    rw [digitBytes] at ih
    rw [ih]; ring

theorem leNat_digitBytes (x : List Digit) : leNat (digitBytes x) = val x := by
  induction x with
  | nil => rfl
  | cons d x ih =>
    rw [digitBytes, List.flatMap_cons, leNat_append, digit_leNat, List.length_map, List.length_range, val]
    rw [digitBytes] at ih
    have := d.isLt
    rw [ih, Nat.mod_eq_of_lt (by norm_num; omega)]
    norm_num

/-- The two arrays are the same bytes in memory. -/
theorem digitBytes_split (x : List Word.Digit) : digitBytes (split x) = Word.digitBytes x := by
  apply leNat_inj
  · rw [digitBytes_length, split_length, Word.digitBytes_length]; ring
  · rw [leNat_digitBytes, val_split, Word.leNat_digitBytes]

theorem digitOf_toNat : ∀ b : List UInt8, b.length ≤ 4 → (digitOf b).toNat = leNat b
  | [], _ => rfl
  | x :: xs, h => by
    have hl : xs.length ≤ 3 := by rw [List.length_cons] at h; omega
    have ih := digitOf_toNat xs (by omega)
    have hlt := leNat_lt xs
    have h7 : (256 : ℕ) ^ xs.length ≤ 256 ^ 3 := Nat.pow_le_pow_right (by norm_num) hl
    have hx := x.toNat_lt
    rw [digitOf, leNat, BitVec.toNat_or, BitVec.toNat_setWidth, BitVec.toNat_shiftLeft, ih, UInt8.toNat_toBitVec,
      Nat.mod_eq_of_lt (by omega), Nat.shiftLeft_eq, Nat.mod_eq_of_lt (by omega), Nat.or_comm,
      ← Nat.shiftLeft_eq, ← Nat.shiftLeft_add_eq_or_of_lt (by omega), Nat.shiftLeft_eq]
    ring

theorem digitsOf_length : ∀ (n : ℕ) (b : List UInt8), (digitsOf n b).length = n
  | 0, _ => rfl
  | n + 1, b => by rw [digitsOf, List.length_cons, digitsOf_length n]

theorem val_digitsOf : ∀ (n : ℕ) (b : List UInt8), b.length = 4 * n → val (digitsOf n b) = leNat b
  | 0, b, h => by rw [List.length_eq_zero_iff.1 (by omega : b.length = 0)]; rfl
  | n + 1, b, h => by
    have hl : (b.take 4).length = 4 := by rw [List.length_take]; omega
    have ih := val_digitsOf n (b.drop 4) (by rw [List.length_drop]; omega)
    have hs : leNat b = leNat (b.take 4) + 256 ^ 4 * leNat (b.drop 4) := by
      conv_lhs => rw [← List.take_append_drop 4 b]
      rw [leNat_append, hl]
    rw [digitsOf, val, ih, digitOf_toNat _ (by omega), hs]
    norm_num

theorem digitsOf_split {n : ℕ} {b : List UInt8} (hb : b.length = 8 * n) : digitsOf (2 * n) b = split (Word.digitsOf n b) :=
  split_eq (by rw [digitsOf_length, Word.digitsOf_length])
    (by rw [val_digitsOf _ _ (by omega), Word.val_digitsOf _ _ hb])

theorem encodeToBytes_split (x : List Word.Digit) (k : ℕ) : encodeToBytes (split x) k = Word.encodeToBytes x k := by
  rw [encodeToBytes, digitBytes_split, Word.encodeToBytes]

/-- The bytes above the last that is written: those of the last digit, which is cleared -/
theorem drop_last {dec : List Digit} {n k : ℕ} (hn : 0 < n) (hdec : dec.length = n) (h1 : 4 * (n - 1) ≤ k) :
    leNat ((digitBytes (dec.set (n - 1) 0)).drop k) = 0 := by
  have hset : dec.set (n - 1) 0 = dec.take (n - 1) ++ [0] := by
    apply List.ext_getElem?
    intro i
    rw [List.getElem?_set, List.getElem?_append, List.length_take, hdec, Nat.min_eq_left (by omega)]
    by_cases hi : n - 1 = i
    · subst hi
      rw [if_pos rfl, if_pos (by omega), if_neg (by omega), Nat.sub_self]; rfl
    · rw [if_neg hi]
      by_cases hi2 : i < n - 1
      · rw [if_pos hi2, List.getElem?_take, if_pos hi2]
      · rw [if_neg hi2, List.getElem?_eq_none (by omega), List.getElem?_eq_none (by simp; omega)]
  have hlt : (digitBytes (dec.take (n - 1))).length = 4 * (n - 1) := by
    rw [digitBytes_length, List.length_take, hdec, Nat.min_eq_left (by omega)]
  have happ : ∀ x y : List Digit, digitBytes (x ++ y) = digitBytes x ++ digitBytes y := fun x y => List.flatMap_append
  rw [hset, happ, List.drop_append, hlt, List.drop_eq_nil_of_le (by omega), List.nil_append]
  have : digitBytes [0] = List.replicate 4 0 := by decide
  rw [this, List.drop_replicate]
  generalize 4 - (k - 4 * (n - 1)) = m
  induction m with
  | zero => rfl
  | succ m ih => rw [List.replicate_succ, leNat, ih]; rfl

theorem decodeToDigits_val {dec : List Digit} {x : List UInt8} {k n : ℕ} (hn : 0 < n) (hdec : dec.length = n)
    (hx : k ≤ x.length) (h1 : 4 * (n - 1) ≤ k) (h2 : k ≤ 4 * n) :
    (decodeToDigits dec x k n).length = n ∧ val (decodeToDigits dec x k n) = leNat (x.take k) := by
  refine ⟨digitsOf_length _ _, ?_⟩
  rw [decodeToDigits]
  have hl : (x.take k).length = k := by rw [List.length_take, Nat.min_eq_left hx]
  have hdl : (digitBytes (dec.set (n - 1) 0)).length = 4 * n := by rw [digitBytes_length, List.length_set, hdec]
  rw [val_digitsOf _ _ (by rw [List.length_append, List.length_drop, hl, hdl]; omega), leNat_append, hl,
    drop_last hn hdec h1, Nat.mul_zero, Nat.add_zero]

theorem decodeToDigits_split {dec : List Word.Digit} {x : List UInt8} {k n : ℕ} (hn : 0 < n) (hdec : dec.length = n)
    (hx : k ≤ x.length) (h1 : 8 * n - 4 ≤ k) (h2 : k ≤ 8 * n) :
    decodeToDigits (split dec) x k (2 * n) = split (Word.decodeToDigits dec x k n) := by
  obtain ⟨l1, v1⟩ := decodeToDigits_val (dec := split dec) (x := x) (k := k) (n := 2 * n) (by omega)
    (by rw [split_length, hdec]) hx (by omega) (by omega)
  obtain ⟨l2, v2⟩ := Word.decodeToDigits_val (dec := dec) (x := x) (k := k) (n := n) hn hdec hx (by omega) h2
  exact split_eq (by rw [l1, l2]) (by rw [v1, v2])

variable {l : Level}

theorem fpLt_split {a b : List Word.Digit} (ha : a.length = (Word.tables l).n) (hb : b.length = (Word.tables l).n) :
    fpLt (split a) (split b) = Word.fpLt a b := by
  rw [fpLt, mpSub_split ha hb, Word.fpLt]

/-! ## `fprand` -/

/-- Bits of the numbers `fprand` returns -/
def randBits : Level → ℕ
  | .l434 => 430
  | .l503 => 489
  | .l610 => 638
  | .l751 => 753

theorem fprand_val {bytes : List UInt8} (hb : bytes.length = 8 * (Word.tables l).n) :
    (fprand (tables l) bytes).length = (tables l).n ∧
      val (fprand (tables l) bytes) = leNat bytes % 2 ^ randBits l := by
  have hn : ∃ m, (tables l).n = m + 1 := by cases l <;> exact ⟨_, rfl⟩
  obtain ⟨m, hm⟩ := hn
  have hlen := digitsOf_length (tables l).n bytes
  have hval := val_digitsOf (tables l).n bytes (by rw [hb, tables_n]; ring)
  have hk : ∃ k, k ≤ 32 ∧ ((-1 : Digit) >>> ((tables l).nbits % 32)).toNat = 2 ^ k - 1 ∧ randBits l = 32 * m + k := by
    cases l
    · exact ⟨14, by norm_num, by decide +kernel, by have : 14 = m + 1 := hm; show 430 = _; omega⟩
    · exact ⟨9, by norm_num, by decide +kernel, by have : 16 = m + 1 := hm; show 489 = _; omega⟩
    · exact ⟨30, by norm_num, by decide +kernel, by have : 20 = m + 1 := hm; show 638 = _; omega⟩
    · exact ⟨17, by norm_num, by decide +kernel, by have : 24 = m + 1 := hm; show 753 = _; omega⟩
  obtain ⟨k, hk64, hk, hr⟩ := hk
  rw [fprand]
  generalize digitsOf (tables l).n bytes = el at *
  rw [← hval, hm, Nat.add_sub_cancel]
  have hel : el.length = m + 1 := hlen.trans hm
  refine ⟨by rw [List.length_modify, hel], ?_⟩
  have htk : (el.take m).length = m := by rw [List.length_take, hel]; omega
  have hs : val el = val (el.take m) + 2 ^ (32 * m) * (el.getD m 0).toNat := by
    have hsp : el = el.take m ++ [el.getD m 0] := by
      have := modify_last id 0 el m hel
      rw [List.modify_id] at this
      exact this
    conv_lhs => rw [hsp, val_append, htk]
    rw [val, val, Nat.mul_zero, Nat.add_zero]
  have hlt := val_lt (el.take m)
  rw [htk] at hlt
  rw [modify_last _ 0 el m hel, val_append, htk, val, val, Nat.mul_zero, Nat.add_zero, BitVec.toNat_and, hk,
    Nat.and_two_pow_sub_one_eq_mod, hs, hr, pow_add, Nat.mod_mul, Nat.add_mul_mod_self_left,
    Nat.mod_eq_of_lt hlt, Nat.add_mul_div_left _ _ (by positivity), Nat.div_eq_of_lt hlt, Nat.zero_add]

/-! ## `Ladder` -/

theorem swapWords_split {c : UInt} (hc : Bit c) : ∀ (a b : List Word.Digit),
    swapWords (ladderMask c) (split a) (split b) =
      (split (WCurve.swapWords (- c.setWidth 64) a b).1, split (WCurve.swapWords (- c.setWidth 64) a b).2)
  | [], b => by rfl
  | x :: xs, [] => by rfl
  | x :: xs, y :: ys => by
    have ih := swapWords_split hc xs ys
    unfold swapWords WCurve.swapWords at ih ⊢
    simp only [split, List.zipWith_cons_cons]
    rw [Prod.mk.injEq] at ih ⊢
    rw [ih.1, ih.2]
    rcases hc.cases with rfl | rfl
    · have e : ladderMask 0 = 0 := rfl
      have e' : (- (0 : UInt).setWidth 64 : Word.Digit) = 0 := rfl
      rw [e, e']
      simp
    · have e : ladderMask 1 = BitVec.allOnes 32 := rfl
      have e' : (- (1 : UInt).setWidth 64 : Word.Digit) = BitVec.allOnes 64 := rfl
      rw [e, e']
      simp only [BitVec.allOnes_and, BitVec.setWidth_xor, BitVec.ushiftRight_xor_distrib, and_self]

theorem split_get : ∀ (m : List Word.Digit) (k : ℕ),
    (split m)[2 * k]? = (m[k]?).map (fun x : Word.Digit => x.setWidth 32) ∧ (split m)[2 * k + 1]? = (m[k]?).map (fun x : Word.Digit => (x >>> 32).setWidth 32)
  | [], k => by simp [split]
  | x :: xs, 0 => by simp [split]
  | x :: xs, k + 1 => by
    obtain ⟨h1, h2⟩ := split_get xs k
    simp only [split, Nat.mul_add, Nat.mul_one, List.getElem?_cons_succ]
    exact ⟨h1, h2⟩

/-- The bit read by `Ladder` from the 64-bit digits (`WCurve.ladderLoop`) -/
def scalarBit64 (m : List Word.Digit) (i : ℕ) : Option UInt := do
  let w ← m[i / 64]?
  some (((w >>> (i % 64)) &&& 1).setWidth 32)

theorem scalarBit_split (m : List Word.Digit) (i : ℕ) : scalarBit (split m) i = scalarBit64 m i := by
  unfold scalarBit scalarBit64
  have hbit : ∀ {w : ℕ} (x : BitVec w) (k : ℕ), 0 < w → ((x >>> k) &&& 1).toNat = x.toNat / 2 ^ k % 2 := by
    intro w x k hw
    have h1 : (1 : BitVec w).toNat = 2 ^ 1 - 1 := by
      have : 1 < 2 ^ w := Nat.one_lt_two_pow (by omega)
      show (BitVec.ofNat w 1).toNat = _
      rw [BitVec.toNat_ofNat, Nat.mod_eq_of_lt this]; rfl
    rw [BitVec.toNat_and, h1, Nat.and_two_pow_sub_one_eq_mod, BitVec.toNat_ushiftRight, Nat.shiftRight_eq_div_pow, pow_one]
  obtain ⟨g0, g1⟩ := split_get m (i / 64)
  by_cases h : i % 64 < 32
  · rw [show i / 32 = 2 * (i / 64) by omega, g0]
    cases m[i / 64]? with
    | none => rfl
    | some x =>
      show some _ = some _
      congr 1
      apply BitVec.eq_of_toNat_eq
      rw [BitVec.toNat_setWidth, BitVec.toNat_setWidth, hbit _ _ (by norm_num), hbit _ _ (by norm_num), BitVec.toNat_setWidth,
        show i % 32 = i % 64 by omega, ← Nat.toNat_testBit, ← Nat.toNat_testBit, Nat.testBit_mod_two_pow, decide_eq_true h,
        Bool.true_and]
  · rw [show i / 32 = 2 * (i / 64) + 1 by omega, g1]
    cases m[i / 64]? with
    | none => rfl
    | some x =>
      have := x.isLt
      show some _ = some _
      congr 1
      apply BitVec.eq_of_toNat_eq
      rw [BitVec.toNat_setWidth, BitVec.toNat_setWidth, hbit _ _ (by norm_num), hbit _ _ (by norm_num), BitVec.toNat_setWidth,
        BitVec.toNat_ushiftRight, Nat.shiftRight_eq_div_pow, Nat.mod_eq_of_lt (by omega : x.toNat / 2 ^ 32 < 2 ^ 32),
        Nat.div_div_eq_div_mul, ← pow_add, show 32 + i % 32 = i % 64 by omega]

end Secuer.Word32
