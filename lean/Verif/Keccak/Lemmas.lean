import Verif.Keccak.Model
import Verif.Keccak.Spec
import Mathlib.Tactic.FinCases
import Mathlib.Tactic.Ring
import Mathlib.Data.List.GetD

/-!
# The code of `fips202.c` refines FIPS 202
-/

namespace Secuer.Keccak

open Secuer.Text
open Secuer.Keccak.Spec (Arr Bits bitsOf byteBits)

set_option maxRecDepth 8000

/-! ### One round on lanes -/

abbrev Plane := Fin 5 → Fin 5 → W

/-- The bits of the lanes -/
def bits (A : Plane) : Arr := fun x y z => (A x y).getLsbD z

theorem ROL_bit (a : W) {k : ℕ} (h0 : 0 < k) (h1 : k < 64) (z : Fin 64) :
    (ROL a k).getLsbD z = a.getLsbD ((z - Fin.ofNat 64 k : Fin 64) : ℕ) := by
  have hz := z.2
  have e : ((z - Fin.ofNat 64 k : Fin 64) : ℕ) = (64 - k + z) % 64 := by
    rw [Fin.sub_def]
    simp only [Fin.ofNat, Nat.mod_eq_of_lt h1]
  rw [e]
  unfold ROL
  rw [BitVec.getLsbD_xor, BitVec.getLsbD_shiftLeft, BitVec.getLsbD_ushiftRight]
  by_cases h : (z : ℕ) < k
  · have : (64 - k + z) % 64 = 64 - k + z := Nat.mod_eq_of_lt (by omega)
    simp [h, this]
  · have : (64 - k + z) % 64 = z - k := by
      rw [show 64 - k + (z : ℕ) = (z - k) + 64 by omega, Nat.add_mod_right]
      exact Nat.mod_eq_of_lt (by omega)
    have h2 : a.getLsbD (64 - k + z) = false := BitVec.getLsbD_of_ge _ _ (by omega)
    simp [h, this, h2, hz]

/-- Rotation offsets -/
def off (x y : Fin 5) : ℕ :=
  ([[0, 36, 3, 41, 18], [1, 44, 10, 45, 2], [62, 6, 43, 15, 61], [28, 55, 25, 21, 56], [27, 20, 39, 8, 14]].getD x []).getD y 0

def rotL (a : W) (k : ℕ) : W := if k = 0 then a else ROL a k

def thetaL (A : Plane) : Plane :=
  let C : Fin 5 → W := fun x => A x 0 ^^^ A x 1 ^^^ A x 2 ^^^ A x 3 ^^^ A x 4
  let D : Fin 5 → W := fun x => C (x - 1) ^^^ ROL (C (x + 1)) 1
  fun x y => A x y ^^^ D x

def rhoL (A : Plane) : Plane := fun x y => rotL (A x y) (off x y)

def piL (A : Plane) : Plane := fun x y => A (x + 3 * y) x

def chiL (A : Plane) : Plane := fun x y => A x y ^^^ ((~~~ A (x + 1) y) &&& A (x + 2) y)

def iotaL (A : Plane) (rc : W) : Plane := fun x y => if x = 0 ∧ y = 0 then A x y ^^^ rc else A x y

def roundL (A : Plane) (rc : W) : Plane := iotaL (chiL (piL (rhoL (thetaL A)))) rc

theorem theta_bits (A : Plane) : bits (thetaL A) = Spec.theta (bits A) := by
  funext x y z
  simp only [bits, thetaL, Spec.theta, BitVec.getLsbD_xor]
  rw [ROL_bit _ (by norm_num) (by norm_num)]
  simp only [BitVec.getLsbD_xor]
  rfl

theorem rho_arr (A : Arr) (x y : Fin 5) (z : Fin 64) : Spec.rho A x y z = A x y (z - Fin.ofNat 64 (off x y)) := by
  have h0 : z = z - Fin.ofNat 64 0 := by rw [show Fin.ofNat 64 0 = 0 from rfl, sub_zero]
  fin_cases x <;> fin_cases y <;> first | rfl | exact congrArg (A 0 0) h0

theorem rho_bits (A : Plane) : bits (rhoL A) = Spec.rho (bits A) := by
  funext x y z
  rw [rho_arr]
  simp only [bits, rhoL, rotL]
  by_cases h : off x y = 0
  · rw [if_pos h, h, show Fin.ofNat 64 0 = 0 from rfl, sub_zero]
  · rw [if_neg h, ROL_bit _ (by omega) (by revert x y; decide)]

theorem pi_bits (A : Plane) : bits (piL A) = Spec.pi (bits A) := rfl

theorem chi_bits (A : Plane) : bits (chiL A) = Spec.chi (bits A) := by
  funext x y z
  simp only [bits, chiL, Spec.chi, BitVec.getLsbD_xor, BitVec.getLsbD_and, BitVec.getLsbD_not, z.2, decide_true,
    Bool.true_and, Bool.xor_true]

theorem round_bits (A : Plane) (rc : W) (ir : ℕ) (h : ∀ z : Fin 64, rc.getLsbD z = (Spec.RC ir).getD z false) :
    bits (roundL A rc) = Spec.round (bits A) ir := by
  unfold roundL Spec.round
  rw [← theta_bits, ← rho_bits, ← pi_bits, ← chi_bits]
  generalize chiL (piL (rhoL (thetaL A))) = B
  funext x y z
  simp only [bits, iotaL, Spec.iota]
  by_cases hc : x = 0 ∧ y = 0
  · rw [if_pos hc, if_pos hc, BitVec.getLsbD_xor, h]
  · rw [if_neg hc, if_neg hc]

/-- The words as lanes -/
def planeOf (s : State) : Plane := fun x y => s ⟨5 * y + x, by omega⟩

theorem halfAE_round (rc : W) (s : Lanes) : planeOf (halfAE rc s).store = roundL (planeOf s.store) rc := by
  funext x y
  fin_cases x <;> fin_cases y <;> rfl

theorem halfEA_round (rc : W) (s : Lanes) : planeOf (halfEA rc s).store = roundL (planeOf s.store) rc := by
  funext x y
  fin_cases x <;> fin_cases y <;> rfl

theorem load_store (s : State) : (Lanes.load s).store = s := by
  funext i
  fin_cases i <;> rfl

/-- The table of round constants -/
theorem constants : ∀ ir : Fin 24, ∀ z : Fin 64, (roundConstants.getD ir 0).getLsbD z = (Spec.RC ir).getD z false := by
  decide +kernel

theorem rounds_plane : ∀ (rcs : List W) (s : Lanes), rcs.length % 2 = 0 →
    planeOf (rounds rcs s).store = rcs.foldl roundL (planeOf s.store)
  | [], s, _ => rfl
  | [_], _, h => by simp at h
  | rc :: rc' :: rcs, s, h => by
    rw [rounds, rounds_plane rcs _ (by simp at h; omega), halfEA_round, halfAE_round]
    rfl

theorem permute_bits (s : State) : bits (planeOf (permute s)) = (List.range 24).foldl Spec.round (bits (planeOf s)) := by
  unfold permute
  rw [rounds_plane _ _ (by decide), load_store]
  have key : ∀ n ≤ 24, ∀ A : Plane,
      bits ((roundConstants.take n).foldl roundL A) = (List.range n).foldl Spec.round (bits A) := by
    intro n
    induction n with
    | zero => intro _ A; rfl
    | succ n ih =>
      intro hn A
      have h24 : n < roundConstants.length := by
        rw [show roundConstants.length = 24 by decide]
        omega
      rw [List.take_succ_eq_append_getElem h24, List.foldl_append, List.range_succ, List.foldl_append, ← ih (by omega)]
      simp only [List.foldl_cons, List.foldl_nil]
      refine round_bits _ _ n fun z => ?_
      have := constants ⟨n, by omega⟩ z
      rw [List.getD_eq_getElem _ _ h24] at this
      exact this
  have := key 24 le_rfl (planeOf s)
  rwa [show roundConstants.take 24 = roundConstants by decide] at this

/-! ### States as strings -/

/-- The string of the state: bit `z` of word `i` is bit `64 i + z`. -/
def bitsS (s : State) : Bits := (List.range 1600).map fun k => (s (Fin.ofNat 25 (k / 64))).getLsbD (k % 64)

theorem bitsS_length (s : State) : (bitsS s).length = 1600 := by rw [bitsS, List.length_map, List.length_range]

theorem bitsS_getElem (s : State) {k : ℕ} (h : k < (bitsS s).length) :
    (bitsS s)[k] = (s (Fin.ofNat 25 (k / 64))).getLsbD (k % 64) := by
  simp only [bitsS, List.getElem_map, List.getElem_range]

theorem toArr_bitsS (s : State) : Spec.toArr (bitsS s) = bits (planeOf s) := by
  funext x y z
  unfold Spec.toArr bits planeOf
  have hx := x.2
  have hy := y.2
  have hz := z.2
  rw [List.getD_eq_getElem _ _ (by rw [bitsS_length]; omega), bitsS_getElem]
  have h1 : (64 * (5 * (y : ℕ) + x) + z) / 64 = 5 * y + x := by omega
  have h2 : (64 * (5 * (y : ℕ) + x) + z) % 64 = z := by omega
  rw [h1, h2]
  congr 2
  apply Fin.ext
  simp only [Fin.ofNat]
  exact Nat.mod_eq_of_lt (by omega)

theorem toBits_planeOf (s : State) : Spec.toBits (bits (planeOf s)) = bitsS s := by
  unfold Spec.toBits bitsS bits planeOf
  refine List.map_congr_left fun k hk => ?_
  rw [List.mem_range] at hk
  simp only [Fin.ofNat]
  congr 3
  omega

/-- **The permutation.** -/
theorem keccakF_bitsS (s : State) : Spec.keccakF (bitsS s) = bitsS (permute s) := by
  unfold Spec.keccakF
  rw [toArr_bitsS, ← permute_bits, toBits_planeOf]

theorem keccakF_iter (s : State) (i : ℕ) : Spec.keccakF^[i] (bitsS s) = bitsS (permute^[i] s) := by
  induction i generalizing s with
  | zero => rfl
  | succ i ih => rw [Function.iterate_succ_apply, Function.iterate_succ_apply, keccakF_bitsS, ih]

/-! ### Bytes and bits -/

theorem flatMap_getElem? {α β : Type} {c : ℕ} (hc : 0 < c) {f : α → List β} : ∀ {L : List α}, (∀ a ∈ L, (f a).length = c) →
    ∀ k, (L.flatMap f)[k]? = (L[k / c]?).bind fun a => (f a)[k % c]?
  | [], _, k => by simp
  | a :: L, h, k => by
    rw [List.flatMap_cons, List.getElem?_append]
    have ha := h a (by simp)
    rw [ha]
    by_cases hk : k < c
    · rw [if_pos hk, Nat.div_eq_of_lt hk, Nat.mod_eq_of_lt hk]
      rfl
    · rw [if_neg hk, flatMap_getElem? hc (fun b hb => h b (by simp [hb]))]
      obtain ⟨j, rfl⟩ := Nat.exists_eq_add_of_le (Nat.le_of_not_lt hk)
      rw [Nat.add_sub_cancel_left, Nat.add_mod_left, Nat.add_div_left _ hc, List.getElem?_cons_succ]

theorem flatMap_length {α β : Type} {c : ℕ} {f : α → List β} {L : List α} (h : ∀ a ∈ L, (f a).length = c) :
    (L.flatMap f).length = c * L.length := by
  induction L with
  | nil => simp
  | cons a L ih =>
    rw [List.flatMap_cons, List.length_append, ih fun b hb => h b (by simp [hb]), h a (by simp), List.length_cons]
    ring

theorem byteBits_length (b : UInt8) : (byteBits b).length = 8 := by
  rw [byteBits, List.length_map, List.length_range]

theorem bitsOf_length (bs : Bytes) : (bitsOf bs).length = 8 * bs.length := flatMap_length fun b _ => byteBits_length b

theorem bitsOf_append (a b : Bytes) : bitsOf (a ++ b) = bitsOf a ++ bitsOf b := List.flatMap_append

theorem bitsOf_getElem? (bs : Bytes) (k : ℕ) : (bitsOf bs)[k]? = (bs[k / 8]?).map fun b => b.toNat.testBit (k % 8) := by
  unfold bitsOf
  rw [flatMap_getElem? (by norm_num) fun b _ => byteBits_length b]
  cases bs[k / 8]? with
  | none => rfl
  | some b =>
    simp only [Option.bind_some, Option.map_some, byteBits]
    rw [List.getElem?_map, List.getElem?_range (Nat.mod_lt _ (by norm_num))]
    rfl

theorem bitsOf_take (bs : Bytes) (n : ℕ) : bitsOf (bs.take n) = (bitsOf bs).take (8 * n) := by
  apply List.ext_getElem?
  intro k
  rw [bitsOf_getElem?, List.getElem?_take, List.getElem?_take, bitsOf_getElem?]
  by_cases h : k < 8 * n
  · rw [if_pos h, if_pos (by omega)]
  · rw [if_neg h, if_neg (by omega)]
    rfl

theorem bitsOf_drop (bs : Bytes) (n : ℕ) : bitsOf (bs.drop n) = (bitsOf bs).drop (8 * n) := by
  apply List.ext_getElem?
  intro k
  rw [bitsOf_getElem?, List.getElem?_drop, List.getElem?_drop, bitsOf_getElem?, show (8 * n + k) / 8 = n + k / 8 by omega,
    show (8 * n + k) % 8 = k % 8 by omega]

theorem bitsOf_injective {a b : Bytes} (h : bitsOf a = bitsOf b) : a = b := by
  have hl : a.length = b.length := by
    have := congrArg List.length h
    rw [bitsOf_length, bitsOf_length] at this
    omega
  refine List.ext_getElem hl fun i h1 h2 => ?_
  apply UInt8.toNat_inj.1
  apply Nat.eq_of_testBit_eq
  intro j
  by_cases hj : j < 8
  · have := congrArg (fun L => L[8 * i + j]?) h
    simp only [bitsOf_getElem?, show (8 * i + j) / 8 = i by omega, show (8 * i + j) % 8 = j by omega,
      List.getElem?_eq_getElem h1, List.getElem?_eq_getElem h2, Option.map_some, Option.some.injEq] at this
    exact this
  · have e : ∀ c : UInt8, c.toNat.testBit j = false := fun c =>
      Nat.testBit_lt_two_pow (lt_of_lt_of_le c.toNat_lt (Nat.pow_le_pow_right (by norm_num) (by omega)))
    rw [e, e]

theorem ofBytes_bit (bs : Bytes) (z : ℕ) (hz : z < 64) :
    (ofBytes bs).getLsbD z = (bitsOf bs).getD z false := by
  induction bs generalizing z with
  | nil => simp [ofBytes, bitsOf]
  | cons b bs ih =>
    have e : ofBytes (b :: bs) = (ofBytes bs <<< 8) ||| BitVec.setWidth 64 b.toBitVec := rfl
    rw [e, BitVec.getLsbD_or, BitVec.getLsbD_shiftLeft, BitVec.getLsbD_setWidth]
    have hb : b.toBitVec.getLsbD z = b.toNat.testBit z := rfl
    rw [List.getD_eq_getElem?_getD, bitsOf_getElem?]
    by_cases h : z < 8
    · rw [Nat.div_eq_of_lt h, Nat.mod_eq_of_lt h]
      simp only [hz, h, hb, decide_true, Bool.not_true, Bool.and_false, Bool.false_and, Bool.true_and, Bool.false_or,
        List.getElem?_cons_zero, Option.map_some, Option.getD_some]
    · have h0 : b.toNat.testBit z = false :=
        Nat.testBit_lt_two_pow (lt_of_lt_of_le b.toNat_lt (Nat.pow_le_pow_right (by norm_num) (by omega)))
      have ih := ih (z - 8) (by omega)
      rw [List.getD_eq_getElem?_getD, bitsOf_getElem?] at ih
      rw [hb, h0, ih, show z / 8 = (z - 8) / 8 + 1 by omega, List.getElem?_cons_succ, show (z - 8) % 8 = z % 8 by omega]
      simp [hz, h]

/-! ### Absorbing -/

theorem xorLoop_eq (m : Bytes) : ∀ (n i : ℕ) (s : State), 8 * (i + n) ≤ m.length → i + n ≤ 25 →
    xorLoop m n i s = some fun j : Fin 25 => if i ≤ j ∧ (j : ℕ) < i + n then s j ^^^ ofBytes ((m.drop (8 * j)).take 8) else s j
  | 0, i, s, _, _ => by
    rw [xorLoop]
    congr 1
    funext j
    rw [if_neg (by omega)]
  | n + 1, i, s, h1, h2 => by
    rw [xorLoop, load64, if_pos (by omega)]
    dsimp only
    rw [dif_pos (show i < 25 by omega), xorLoop_eq m n (i + 1) _ (by omega) (by omega)]
    congr 1
    funext j
    by_cases hj : j = ⟨i, by omega⟩
    · subst hj
      rw [Function.update_self, if_neg (by simp), if_pos (by simp)]
    · rw [Function.update_of_ne hj]
      have : (j : ℕ) ≠ i := fun e => hj (Fin.ext e)
      by_cases hc : i ≤ j ∧ (j : ℕ) < i + (n + 1)
      · rw [if_pos hc, if_pos (by omega)]
      · rw [if_neg hc, if_neg (by omega)]

/-- The state after xoring one block in. -/
def xorBlock (b : Bytes) (s : State) : State :=
  fun j => if (j : ℕ) < 17 then s j ^^^ ofBytes ((b.drop (8 * j)).take 8) else s j

theorem xorLoop_block {m : Bytes} (h : rate ≤ m.length) (s : State) :
    xorLoop m (rate / 8) 0 s = some (xorBlock m s) := by
  have hr : rate = 136 := rfl
  rw [xorLoop_eq m (rate / 8) 0 s (by omega) (by decide)]
  congr 1
  funext j
  unfold xorBlock
  by_cases hj : (j : ℕ) < 17
  · rw [if_pos hj, if_pos (by rw [hr]; omega)]
  · rw [if_neg hj, if_neg (by rw [hr]; omega)]

theorem xorBlock_bits {m : Bytes} (h : rate ≤ m.length) (s : State) :
    bitsS (xorBlock m s) = List.zipWith xor (bitsS s) ((bitsOf m).take 1088 ++ List.replicate (1600 - 1088) false) := by
  have hr : rate = 136 := rfl
  have hl : ((bitsOf m).take 1088 ++ List.replicate (1600 - 1088) false).length = 1600 := by
    rw [List.length_append, List.length_take, bitsOf_length, List.length_replicate]
    omega
  refine List.ext_getElem (by rw [List.length_zipWith, bitsS_length, bitsS_length, hl]; rfl) fun k h1 h2 => ?_
  rw [bitsS_length] at h1
  rw [List.getElem_zipWith, bitsS_getElem, bitsS_getElem]
  unfold xorBlock
  have hj : ((Fin.ofNat 25 (k / 64) : Fin 25) : ℕ) = k / 64 := Nat.mod_eq_of_lt (by omega)
  by_cases hk : k < 1088
  · rw [if_pos (by rw [hj]; omega), BitVec.getLsbD_xor, ofBytes_bit _ _ (Nat.mod_lt _ (by norm_num)), hj]
    congr 1
    rw [List.getElem_append_left (by rw [List.length_take, bitsOf_length]; omega), List.getElem_take,
      List.getD_eq_getElem?_getD, bitsOf_take, bitsOf_drop, List.getElem?_take, if_pos (by omega), List.getElem?_drop,
      show 8 * (8 * (k / 64)) + k % 64 = k by omega, List.getElem?_eq_getElem]
    rfl
  · rw [if_neg (by rw [hj]; omega), List.getElem_append_right (by rw [List.length_take, bitsOf_length]; omega),
      List.getElem_replicate, Bool.xor_false]

/-- The last block is the rest of the message, the suffix `1111` and the padding. -/
theorem lastBlock_bits {m : Bytes} (h : m.length < rate) :
    (lastBlock m 0x1F).length = rate ∧
    bitsOf (lastBlock m 0x1F) = bitsOf m ++ [true, true, true, true] ++ Spec.pad 1088 (8 * m.length + 4) := by
  have hr : rate = 136 := rfl
  rw [hr] at h
  by_cases h135 : m.length = 135
  · have e : lastBlock m 0x1F = m ++ [0x9F] := by
      unfold lastBlock
      rw [hr, h135]
      simp only [show 136 - 135 = 1 by rfl, List.replicate_one]
      have e1 : (m ++ [(0 : UInt8)]).set 135 31 = m ++ [31] := by
        rw [List.set_append_right _ _ (by omega), h135]; rfl
      rw [e1, List.set_append_right _ _ (by omega), h135, List.getD_eq_getElem?_getD, List.getElem?_append_right (by omega),
        h135]
      rfl
    rw [e]
    constructor
    · rw [List.length_append, h135]; rfl
    · rw [bitsOf_append, List.append_assoc, h135]
      congr 1
  · obtain ⟨q, hq⟩ : ∃ q, m.length + q + 2 = 136 := ⟨134 - m.length, by omega⟩
    have e : lastBlock m 0x1F = m ++ (0x1F :: (List.replicate q 0 ++ [0x80])) := by
      unfold lastBlock
      have hl : 136 - m.length = q + 2 := by omega
      rw [hr, hl]
      simp only [List.replicate_succ]
      have e1 : (m ++ (0 : UInt8) :: 0 :: List.replicate q 0).set m.length 31 = m ++ 31 :: (List.replicate q 0 ++ [0]) := by
        rw [List.set_append_right _ _ le_rfl, Nat.sub_self, List.set_cons_zero, ← List.replicate_succ, List.replicate_succ']
      rw [e1, List.set_append_right _ _ (by omega), List.getD_eq_getElem?_getD, List.getElem?_append_right (by omega),
        show 136 - 1 - m.length = q + 1 by omega, List.set_cons_succ, List.getElem?_cons_succ,
        List.set_append_right _ _ (by rw [List.length_replicate]), List.getElem?_append_right (by rw [List.length_replicate]),
        List.length_replicate, Nat.sub_self]
      rfl
    rw [e]
    constructor
    · rw [List.length_append, List.length_cons, List.length_append, List.length_replicate, hr]
      simp only [List.length_cons, List.length_nil]
      omega
    · rw [bitsOf_append, List.append_assoc]
      congr 1
      rw [show (0x1F :: (List.replicate q 0 ++ [0x80]) : Bytes) = [0x1F] ++ List.replicate q 0 ++ [0x80] by simp,
        bitsOf_append, bitsOf_append]
      have hz : bitsOf (List.replicate q 0) = List.replicate (8 * q) false := by
        clear hq e
        induction q with
        | zero => rfl
        | succ q ih =>
          rw [List.replicate_succ, show (0 :: List.replicate q 0 : Bytes) = [0] ++ List.replicate q 0 from rfl,
            bitsOf_append, ih, show 8 * (q + 1) = 8 + 8 * q by ring, List.replicate_add]
          rfl
      have hj : ((-((8 * m.length + 4 : ℕ) : Int) - 2) % ((1088 : ℕ) : Int)).toNat = 3 + 8 * q + 7 := by
        rw [show (-((8 * m.length + 4 : ℕ) : Int) - 2) = ((3 + 8 * q + 7 : ℕ) : Int) + (-1) * ((1088 : ℕ) : Int) by push_cast; omega,
          Int.add_mul_emod_self_right, ← Int.natCast_emod, Int.toNat_natCast]
        exact Nat.mod_eq_of_lt (by omega)
      rw [hz, Spec.pad, hj, List.replicate_add, List.replicate_add]
      rw [show bitsOf [0x1F] = [true, true, true, true] ++ (true :: List.replicate 3 false) by decide,
        show bitsOf [0x80] = List.replicate 7 false ++ [true] by decide]
      simp only [List.append_assoc, List.cons_append, List.nil_append]

/-- Absorbing a string that consists of whole blocks. -/
def absorbBits (P : Bits) (S : Bits) : Bits :=
  (List.range (P.length / 1088)).foldl
    (fun S i => Spec.keccakF (List.zipWith xor S ((P.drop (i * 1088)).take 1088 ++ List.replicate (1600 - 1088) false))) S

theorem absorbBits_step {P : Bits} (h : 1088 ≤ P.length) (S : Bits) :
    absorbBits P S = absorbBits (P.drop 1088)
      (Spec.keccakF (List.zipWith xor S (P.take 1088 ++ List.replicate (1600 - 1088) false))) := by
  unfold absorbBits
  have hn : P.length / 1088 = (P.drop 1088).length / 1088 + 1 := by rw [List.length_drop]; omega
  rw [hn, List.range_succ_eq_map, List.foldl_cons, List.foldl_map, Nat.zero_mul, List.drop_zero]
  have hi : ∀ i : ℕ, P.drop (i.succ * 1088) = (P.drop 1088).drop (i * 1088) := by
    intro i
    rw [List.drop_drop, show 1088 + i * 1088 = i.succ * 1088 by rw [Nat.succ_mul]; omega]
  simp only [hi]

theorem pad_drop {n : ℕ} (h : 136 ≤ n) : Spec.pad 1088 (8 * n + 4) = Spec.pad 1088 (8 * (n - 136) + 4) := by
  unfold Spec.pad
  rw [show (-((8 * (n - 136) + 4 : ℕ) : Int) - 2) = (-((8 * n + 4 : ℕ) : Int) - 2) + 1 * ((1088 : ℕ) : Int) by
    push_cast; omega, Int.add_mul_emod_self_right]

theorem absorb_bits (s : State) (m : Bytes) : ∃ s', absorb s m 0x1F = some s' ∧
    bitsS (permute s') = absorbBits (bitsOf m ++ [true, true, true, true] ++ Spec.pad 1088 (8 * m.length + 4)) (bitsS s) := by
  have hr : rate = 136 := rfl
  induction hn : m.length using Nat.strong_induction_on generalizing m s with
  | _ n ih =>
    subst hn
    unfold absorb
    by_cases h : rate ≤ m.length
    · rw [if_pos h, xorLoop_block h]
      dsimp only
      obtain ⟨s', h1, h2⟩ := ih (m.drop rate).length (by rw [List.length_drop]; omega) (permute (xorBlock m s)) (m.drop rate) rfl
      refine ⟨s', h1, ?_⟩
      have hl : 1088 ≤ (bitsOf m).length := by rw [bitsOf_length]; omega
      rw [h2, absorbBits_step (P := bitsOf m ++ [true, true, true, true] ++ Spec.pad 1088 (8 * m.length + 4))
        (by rw [List.length_append, List.length_append]; omega), ← keccakF_bitsS, xorBlock_bits h]
      have e1 : (bitsOf m ++ [true, true, true, true] ++ Spec.pad 1088 (8 * m.length + 4)).take 1088 = (bitsOf m).take 1088 := by
        rw [List.append_assoc, List.take_append_of_le_length hl]
      have e2 : (bitsOf m ++ [true, true, true, true] ++ Spec.pad 1088 (8 * m.length + 4)).drop 1088 =
          bitsOf (m.drop rate) ++ [true, true, true, true] ++ Spec.pad 1088 (8 * (m.drop rate).length + 4) := by
        rw [List.append_assoc, List.drop_append_of_le_length hl, bitsOf_drop, hr, List.append_assoc,
          List.length_drop, pad_drop (by omega)]
      rw [e1, e2]
    · rw [if_neg h]
      obtain ⟨l1, l2⟩ := lastBlock_bits (Nat.lt_of_not_le h)
      rw [xorLoop_block (le_of_eq l1.symm)]
      refine ⟨_, rfl, ?_⟩
      have hl : (bitsOf m ++ [true, true, true, true] ++ Spec.pad 1088 (8 * m.length + 4)).length = 1088 := by
        rw [← l2, bitsOf_length, l1, hr]
      rw [absorbBits_step (le_of_eq hl.symm), ← keccakF_bitsS, xorBlock_bits (le_of_eq l1.symm), l2]
      unfold absorbBits
      rw [List.length_drop, hl]
      rfl

/-! ### Squeezing -/

theorem store64_length (u : W) : (store64 u).length = 8 := by rw [store64, List.length_map, List.length_range]

theorem store64_bit (u : W) {j i : ℕ} (hj : j < 8) (hi : i < 8) :
    ((store64 u)[j]?).map (fun b => b.toNat.testBit i) = some (u.getLsbD (8 * j + i)) := by
  rw [store64, List.getElem?_map, List.getElem?_range hj]
  simp only [Option.map_some, Option.some.injEq]
  change (BitVec.setWidth 8 (u >>> (8 * j))).getLsbD i = _
  rw [BitVec.getLsbD_setWidth, BitVec.getLsbD_ushiftRight]
  simp [hi]

/-- The block written from a state. -/
def blockOf (s : State) : Bytes := ((List.finRange 25).take (rate / 8)).flatMap fun i => store64 (s i)

theorem blockOf_length (s : State) : (blockOf s).length = 136 := by
  unfold blockOf
  rw [flatMap_length (c := 8) fun i _ => store64_length _]
  decide

theorem blockOf_bits (s : State) : bitsOf (blockOf s) = (bitsS s).take 1088 := by
  refine List.ext_getElem? fun k => ?_
  by_cases hk : k < 1088
  · rw [bitsOf_getElem?, List.getElem?_take, if_pos hk,
      List.getElem?_eq_getElem (l := bitsS s) (by rw [bitsS_length]; omega), bitsS_getElem]
    unfold blockOf
    rw [flatMap_getElem? (c := 8) (by norm_num) fun i _ => store64_length _, List.getElem?_take,
      if_pos (by rw [show rate / 8 = 17 from rfl]; omega), List.getElem?_eq_getElem (by rw [List.length_finRange]; omega)]
    rw [Option.bind_some, store64_bit _ (Nat.mod_lt _ (by norm_num)) (Nat.mod_lt _ (by norm_num)), List.getElem_finRange,
      show 8 * (k / 8 % 8) + k % 8 = k % 64 by omega]
    congr 3
    apply Fin.ext
    simp only [Fin.ofNat, Fin.val_cast]
    omega
  · rw [List.getElem?_eq_none (by rw [bitsOf_length, blockOf_length]; omega), List.getElem?_take, if_neg hk]

theorem squeezeBlock_eq (s : State) : squeezeBlock s = (permute s, blockOf (permute s)) := rfl

theorem squeezeBlocks_eq : ∀ (n : ℕ) (s : State), squeezeBlocks n s =
    (permute^[n] s, (List.range n).flatMap fun i => blockOf (permute^[i + 1] s))
  | 0, s => rfl
  | n + 1, s => by
    rw [squeezeBlocks, squeezeBlock_eq]
    dsimp only
    rw [squeezeBlocks_eq n, List.range_succ_eq_map, List.flatMap_cons, List.flatMap_map]
    rfl

/-- The `k`-th block after absorbing into `s`. -/
theorem xofBlock_eq {input : Bytes} {s : State} (h : absorb (fun _ => 0) input 0x1F = some s) (k : ℕ) :
    xofBlock input k = some (blockOf (permute^[k + 1] s)) := by
  unfold xofBlock
  rw [h]
  dsimp only
  rw [squeezeBlock_eq]
  dsimp only
  rw [show (fun s => (squeezeBlock s).1) = permute from rfl, Function.iterate_succ_apply']

theorem blocks_take {f : ℕ → Bytes} (hf : ∀ i, (f i).length = 136) {n : ℕ} :
    ((List.range (n / 136)).flatMap f ++ (f (n / 136)).take (n - n / 136 * 136)) =
      ((List.range (n / 136 + 1)).flatMap f).take n := by
  rw [List.range_succ, List.flatMap_append, List.flatMap_singleton, List.take_append,
    flatMap_length (c := 136) fun i _ => hf i, List.length_range]
  rw [List.take_of_length_le (l := (List.range (n / 136)).flatMap f)
    (by rw [flatMap_length (c := 136) fun i _ => hf i, List.length_range]; omega), Nat.mul_comm 136]

/-- The bytes computed by `shake256`, in terms of blocks. -/
theorem shake256_blocks {input : Bytes} {s : State} (h : absorb (fun _ => 0) input 0x1F = some s) (n : ℕ) :
    shake256 n input = some (((List.range (n / 136 + 1)).flatMap fun i => blockOf (permute^[i + 1] s)).take n) := by
  have hr : rate = 136 := rfl
  unfold shake256
  rw [h]
  dsimp only
  rw [squeezeBlocks_eq, hr, ← blocks_take fun i => blockOf_length _]
  dsimp only
  by_cases hz : n - n / 136 * 136 = 0
  · rw [if_neg (by simpa using hz), hz, List.take_zero, List.append_nil]
  · rw [if_pos hz, squeezeBlocks_eq]
    dsimp only
    rw [show List.range 1 = [0] from rfl, List.flatMap_singleton, ← Function.iterate_add_apply, Nat.zero_add, Nat.add_comm 1]

theorem bitsS_zero : bitsS (fun _ => 0) = List.replicate 1600 false := by
  unfold bitsS
  refine List.ext_getElem (by rw [List.length_map, List.length_range, List.length_replicate]) fun k h1 h2 => ?_
  simp

/-- **Refinement.** `shake256` computes SHAKE256. -/
theorem shake256_refines (input : Bytes) (n : ℕ) :
    ∃ out, shake256 n input = some out ∧ out.length = n ∧ bitsOf out = Spec.shake256 (bitsOf input) (8 * n) := by
  obtain ⟨s, hs, hb⟩ := absorb_bits (fun _ => 0) input
  refine ⟨_, shake256_blocks hs n, ?_, ?_⟩
  · rw [List.length_take, flatMap_length (c := 136) fun i _ => blockOf_length _, List.length_range]
    omega
  · rw [bitsOf_take]
    unfold Spec.shake256 Spec.keccak Spec.sponge Spec.spongeSqueeze Spec.spongeAbsorb
    simp only [show 1600 - 512 = 1088 from rfl, show 8 * n / 1088 = n / 136 by omega]
    have hlen : (bitsOf input ++ [true, true, true, true]).length = 8 * input.length + 4 := by
      rw [List.length_append, bitsOf_length]; rfl
    rw [hlen]
    have hb' : bitsS (permute s) = _ := hb
    rw [bitsS_zero] at hb'
    unfold absorbBits at hb'
    rw [← hb']
    congr 1
    generalize List.range (n / 136 + 1) = L
    clear hb hb'
    induction L with
    | nil => rfl
    | cons i L ih =>
      rw [List.flatMap_cons, List.flatMap_cons, bitsOf_append, ih, blockOf_bits, keccakF_iter]
      rfl

end Secuer.Keccak
