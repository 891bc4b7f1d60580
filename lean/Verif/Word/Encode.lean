import Verif.Word.Fp2
import Verif.Protocol.Model
import Verif.Props.UtilProps

/-!
# Bytes, comparison, square root and sampling on words
-/

namespace Secuer.Word

open Secuer.Field Secuer.Scalar

/-! ## Bytes -/

theorem leNat_append (a b : List UInt8) : leNat (a ++ b) = leNat a + 256 ^ a.length * leNat b := by
  induction a with
  | nil => simp [leNat]
  | cons x a ih =>
    rw [List.cons_append, leNat, leNat, ih, List.length_cons, pow_succ]
    ring

theorem leNat_take (k : ℕ) (b : List UInt8) (hk : k ≤ b.length) : leNat (b.take k) = leNat b % 256 ^ k := by
  have h := leNat_append (b.take k) (b.drop k)
  have hl : (b.take k).length = k := by rw [List.length_take, Nat.min_eq_left hk]
  have h2 := leNat_lt (b.take k)
  rw [List.take_append_drop, hl] at h
  rw [hl] at h2
  rw [h, Nat.add_mul_mod_self_left, Nat.mod_eq_of_lt h2]

theorem digit_leNat (d : Digit) (k : ℕ) :
    leNat ((List.range k).map fun i => UInt8.ofBitVec ((d >>> (8 * i)).setWidth 8)) = d.toNat % 256 ^ k := by
  induction k with
  | zero => rw [pow_zero, Nat.mod_one]; rfl
  | succ k ih =>
    rw [List.range_succ, List.map_append, leNat_append, ih, List.length_map, List.length_range, Nat.pow_succ,
      Nat.mod_mul]
    congr 2
    show (UInt8.ofBitVec ((d >>> (8 * k)).setWidth 8)).toNat + 256 * 0 = _
    rw [Nat.mul_zero, Nat.add_zero, UInt8.toNat_ofBitVec, BitVec.toNat_setWidth, BitVec.toNat_ushiftRight,
      Nat.shiftRight_eq_div_pow, Nat.pow_mul]

theorem digitBytes_length (x : List Digit) : (digitBytes x).length = 8 * x.length := by
  induction x with
  | nil => rfl
  | cons d x ih =>
    rw [digitBytes, List.flatMap_cons, List.length_append, List.length_map, List.length_range, List.length_cons]
    rw [digitBytes] at ih
    rw [ih]; ring

theorem leNat_digitBytes (x : List Digit) : leNat (digitBytes x) = val x := by
  induction x with
  | nil => rfl
  | cons d x ih =>
    rw [digitBytes, List.flatMap_cons, leNat_append, digit_leNat, List.length_map, List.length_range, val]
    rw [digitBytes] at ih
    have := d.isLt
    rw [ih, Nat.mod_eq_of_lt (by norm_num; omega)]
    norm_num

theorem digitOf_toNat : ∀ b : List UInt8, b.length ≤ 8 → (digitOf b).toNat = leNat b
  | [], _ => rfl
  | x :: xs, h => by
    have hl : xs.length ≤ 7 := by rw [List.length_cons] at h; omega
    have ih := digitOf_toNat xs (by omega)
    have hlt := leNat_lt xs
    have h7 : (256 : ℕ) ^ xs.length ≤ 256 ^ 7 := Nat.pow_le_pow_right (by norm_num) hl
    have hx := x.toNat_lt
    rw [digitOf, leNat, BitVec.toNat_or, BitVec.toNat_setWidth, BitVec.toNat_shiftLeft, ih, UInt8.toNat_toBitVec,
      Nat.mod_eq_of_lt (by omega), Nat.shiftLeft_eq, Nat.mod_eq_of_lt (by omega), Nat.or_comm,
      ← Nat.shiftLeft_eq, ← Nat.shiftLeft_add_eq_or_of_lt (by omega), Nat.shiftLeft_eq]
    ring

theorem val_digitsOf : ∀ (n : ℕ) (b : List UInt8), b.length = 8 * n → val (digitsOf n b) = leNat b
  | 0, b, h => by rw [List.length_eq_zero_iff.1 (by omega : b.length = 0)]; rfl
  | n + 1, b, h => by
    have hl : (b.take 8).length = 8 := by rw [List.length_take]; omega
    have ih := val_digitsOf n (b.drop 8) (by rw [List.length_drop]; omega)
    have hs := leNat_append (b.take 8) (b.drop 8)
    rw [List.take_append_drop, hl] at hs
    rw [digitsOf, val, ih, digitOf_toNat _ hl.le, hs]
    norm_num

theorem encodeToBytes_eq {x : List Digit} {k : ℕ} (hk : k ≤ 8 * x.length) (hx : val x < 256 ^ k) :
    encodeToBytes x k = leBytes k (val x) := by
  have hl : k ≤ (digitBytes x).length := by rw [digitBytes_length]; exact hk
  apply leNat_inj
  · rw [leBytes_length, encodeToBytes, List.length_take, Nat.min_eq_left hl]
  · rw [encodeToBytes, leNat_take _ _ hl, leNat_digitBytes, leNat_leBytes _ _ hx, Nat.mod_eq_of_lt hx]

theorem digitBytes_append (x y : List Digit) : digitBytes (x ++ y) = digitBytes x ++ digitBytes y :=
  List.flatMap_append

theorem decodeToDigits_val {dec : List Digit} {x : List UInt8} {k n : ℕ} (hn : 0 < n) (hdec : dec.length = n)
    (hx : k ≤ x.length) (h1 : 8 * (n - 1) ≤ k) (h2 : k ≤ 8 * n) :
    (decodeToDigits dec x k n).length = n ∧ val (decodeToDigits dec x k n) = leNat (x.take k) := by
  refine ⟨digitsOf_length _ _, ?_⟩
  rw [decodeToDigits]
  have hl : (x.take k).length = k := by rw [List.length_take, Nat.min_eq_left hx]
  have hdl : (digitBytes (dec.set (n - 1) 0)).length = 8 * n := by rw [digitBytes_length, List.length_set, hdec]
  rw [val_digitsOf _ _ (by rw [List.length_append, List.length_drop, hl, hdl]; omega), leNat_append, hl]
  have hz : leNat ((digitBytes (dec.set (n - 1) 0)).drop k) = 0 := by
    have hset : dec.set (n - 1) 0 = dec.take (n - 1) ++ [0] := by
      apply List.ext_getElem?
      intro i
      rw [List.getElem?_set, List.getElem?_append, List.length_take, hdec, Nat.min_eq_left (by omega)]
      by_cases hi : n - 1 = i
      · subst hi
        rw [if_pos rfl, if_pos (by omega), if_neg (by omega), Nat.sub_self]; rfl
      · rw [if_neg hi]
        by_cases hi2 : i < n - 1
        · rw [if_pos hi2, List.getElem?_take, if_pos hi2]
        · rw [if_neg hi2, List.getElem?_eq_none (by omega), List.getElem?_eq_none (by simp; omega)]
    have hlt : (digitBytes (dec.take (n - 1))).length = 8 * (n - 1) := by
      rw [digitBytes_length, List.length_take, hdec, Nat.min_eq_left (by omega)]
    rw [hset, digitBytes_append, List.drop_append, hlt, List.drop_eq_nil_of_le (by omega), List.nil_append]
    have : digitBytes [0] = List.replicate 8 0 := by decide
    rw [this, List.drop_replicate]
    generalize 8 - (k - 8 * (n - 1)) = m
    induction m with
    | zero => rfl
    | succ m ih => rw [List.replicate_succ, leNat, ih]; rfl
  rw [hz, Nat.mul_zero, Nat.add_zero]

/-! ## To and from Montgomery representation -/

section
variable {T : Tables} {p : ℕ} [hp : Fact p.Prime]

theorem val_oneDigit {n : ℕ} (hn : 0 < n) :
    ((List.replicate n (0 : Digit)).set 0 1).length = n ∧ val ((List.replicate n (0 : Digit)).set 0 1) = 1 := by
  refine ⟨by rw [List.length_set, List.length_replicate], ?_⟩
  obtain ⟨m, rfl⟩ : ∃ m, n = m + 1 := ⟨n - 1, by omega⟩
  rw [List.replicate_succ, List.set_cons_zero, val, val_replicate_zero]
  rfl

section
variable [Arith]

/-- `from_mont` gives the least residue of the element represented. -/
theorem fromMont_spec' (g : Good T p) {a : List Digit} (ha : a.length = T.n)
    (hm : fpmul T a ((List.replicate T.n (0 : Digit)).set 0 1) = fpmulC T a ((List.replicate T.n (0 : Digit)).set 0 1)) :
    (fromMont T a).length = T.n ∧ val (fromMont T a) = (fpVal T p a).val := by
  obtain ⟨hl, hv⟩ := val_oneDigit g.n_pos
  have hlt := val_lt a
  rw [ha] at hlt
  have hpp := g.pos
  have hb : val a * val ((List.replicate T.n (0 : Digit)).set 0 1) < 2 ^ (64 * T.n) * p := by
    rw [hv, Nat.mul_one]
    calc val a < 2 ^ (64 * T.n) * 1 := by omega
      _ ≤ _ := Nat.mul_le_mul_left _ (by omega)
  obtain ⟨c, q, _, e2, l, hq, hx⟩ := fpmul_exact g ha hl hb
  have hc := exact_val g hx
  have hc2 := lt_two_of_exact hq hb hx
  obtain ⟨l', hv'⟩ := fpcorrection_val g l
  rw [fromMont, hm, e2]
  refine ⟨l', ?_⟩
  have e : ((val (fpcorrection T c) : ℕ) : ZMod p) = fpVal T p a := by
    rw [fpVal, hv']
    rw [hv, Nat.mul_one] at hc
    rw [← hc]
    split
    · rw [Nat.cast_sub (by assumption), cast_p, sub_zero]
    · rfl
  rw [← e, ZMod.val_natCast_of_lt]
  rw [hv']
  split <;> omega

/-- `to_mont` represents the integer in the array. -/
theorem toMont_spec' (g : Good T p) {a : List Digit} (ha : a.length = T.n) (hm : fpmul T a T.r2 = fpmulC T a T.r2) :
    Rng T (2 * p) (toMont T a) ∧ fpVal T p (toMont T a) = (val a : ZMod p) := by
  have hlt := val_lt a
  rw [ha] at hlt
  have hpp := g.pos
  have hr : val T.r2 < p := by rw [g.val_r2]; exact Nat.mod_lt _ (by omega)
  obtain ⟨h1, h2⟩ := fpmulC_spec' g ha g.len_r2 (Nat.mul_lt_mul'' hlt hr)
  rw [toMont, hm]
  refine ⟨h1, ?_⟩
  have hR := R_ne_zero g
  have e2 : ((2 : ℕ) : ZMod p) = 2 := by norm_num
  rw [h2, fpVal, fpVal, g.val_r2, ZMod.natCast_mod, Nat.cast_mul, Nat.cast_pow, e2]
  field_simp

variable [ok : ArithOK T p]

theorem fromMont_spec (g : Good T p) {a : List Digit} (ha : Rng T (120 * p) a) :
    (fromMont T a).length = T.n ∧ val (fromMont T a) = (fpVal T p a).val := by
  obtain ⟨hl, hv⟩ := val_oneDigit g.n_pos
  have hpp := g.pos
  have hlt := val_lt a
  rw [ha.len] at hlt
  refine fromMont_spec' g ha.len (ok.fpmul ha ⟨hl, by rw [hv]; omega⟩ ?_)
  rw [hv, Nat.mul_one]
  calc val a < 2 ^ (64 * T.n) * 1 := by omega
    _ ≤ _ := Nat.mul_le_mul_left _ (by omega)

theorem toMont_spec (g : Good T p) {a : List Digit} (ha : Rng T (120 * p) a) :
    Rng T (2 * p) (toMont T a) ∧ fpVal T p (toMont T a) = (val a : ZMod p) := by
  have hpp := g.pos
  have hlt := val_lt a
  rw [ha.len] at hlt
  have hr : val T.r2 < p := by rw [g.val_r2]; exact Nat.mod_lt _ (by omega)
  exact toMont_spec' g ha.len (ok.fpmul ha ⟨g.len_r2, by omega⟩ (Nat.mul_lt_mul'' hlt hr))

end

theorem fpVal_eq_iff (g : Good T p) {a b : List Digit} : fpVal T p a = fpVal T p b ↔ (val a : ZMod p) = val b := by
  unfold fpVal
  exact mul_left_inj' (inv_ne_zero (R_ne_zero g))

theorem fpVal_inj (g : Good T p) {a b : List Digit} (ha : Rng T p a) (hb : Rng T p b)
    (h : fpVal T p a = fpVal T p b) : a = b := by
  rw [fpVal_eq_iff g, ZMod.natCast_eq_natCast_iff, Nat.ModEq, Nat.mod_eq_of_lt ha.lt, Nat.mod_eq_of_lt hb.lt] at h
  exact val_inj (ha.len.trans hb.len.symm) h

theorem rng_zero (g : Good T p) {B : ℕ} (hB : 0 < B) : Rng T B (List.replicate T.n (0 : Digit)) :=
  ⟨List.length_replicate, by rw [val_replicate_zero]; exact hB⟩

theorem fpVal_zero : fpVal T p (List.replicate T.n (0 : Digit)) = 0 := by
  rw [fpVal, val_replicate_zero, Nat.cast_zero, zero_mul]

section
variable [Arith] [ok : ArithOK T p]

/-- `fp_equal` decides equality of the elements when the first array is below `2p` and the second at most `2p`. -/
theorem fpEqual_spec (g : Good T p) {a b : List Digit} (ha : Rng T (2 * p) a) (hb : Rng T (2 * p + 1) b) :
    fpEqual T a b = if fpVal T p a = fpVal T p b then 255#8 else 0#8 := by
  obtain ⟨r1, v1⟩ := fpsub_spec g ha hb
  obtain ⟨r2, v2⟩ := fpcorrection_spec g r1
  have hp0 : 0 < p := by have := g.pos; omega
  have key : digitBytes (fpcorrection T (fpsub T a b)) = digitBytes (List.replicate T.n 0) ↔
      fpVal T p a = fpVal T p b := by
    constructor
    · intro h
      have h := congrArg leNat h
      rw [leNat_digitBytes, leNat_digitBytes] at h
      have h2 := val_inj (r2.len.trans (rng_zero g hp0).len.symm) h
      rw [h2, fpVal_zero] at v2
      rw [v1] at v2
      exact (sub_eq_zero.1 v2.symm)
    · intro h
      rw [fpVal_inj g r2 (rng_zero g hp0) (by rw [v2, v1, h, sub_self, fpVal_zero])]
  rw [fpEqual]
  rw [Util.C53_ct_compare _ _ (by rw [digitBytes_length, digitBytes_length, r2.len, List.length_replicate])]
  by_cases h : fpVal T p a = fpVal T p b
  · rw [if_pos h, if_pos (key.2 h)]; rfl
  · rw [if_neg h, if_neg (fun hh => h (key.1 hh))]; rfl

theorem fpEqual_ne (g : Good T p) {a b : List Digit} (ha : Rng T (2 * p) a) (hb : Rng T (2 * p + 1) b) :
    fpEqual T a b ≠ 0 ↔ fpVal T p a = fpVal T p b := by
  rw [fpEqual_spec g ha hb]
  split
  · exact ⟨fun _ => by assumption, fun _ => by decide⟩
  · exact ⟨fun h => absurd rfl h, fun h => absurd h (by assumption)⟩

/-- A comparison that agrees with `fp_equal` on arrays in its range -/
class FpEqOK (T : Tables) (p : ℕ) [Arith] [FpEq] : Prop where
  agrees : ∀ {a b : List Digit}, Rng T (2 * p) a → Rng T (2 * p + 1) b → FpEq.eq T a b = fpEqual T a b

omit hp in
instance FpEqOK.code {T : Tables} {p : ℕ} [Arith] : FpEqOK T p := ⟨fun _ _ => rfl⟩

section
variable [FpEq] [FpEqOK T p]

theorem eq_ne (g : Good T p) {a b : List Digit} (ha : Rng T (2 * p) a) (hb : Rng T (2 * p + 1) b) :
    FpEq.eq T a b ≠ 0 ↔ fpVal T p a = fpVal T p b := by
  rw [FpEqOK.agrees ha hb, fpEqual_ne g ha hb]

theorem fp2equal_spec (g : Good T p) {a b : F2} (ha : Rng2 T (2 * p) a) (hb : Rng2 T (2 * p + 1) b) :
    fp2equal T a b = if f2Val T p a = f2Val T p b then 255#8 else 0#8 := by
  rw [fp2equal, FpEqOK.agrees ha.c0 hb.c0, FpEqOK.agrees ha.c1 hb.c1, fpEqual_spec g ha.c0 hb.c0, fpEqual_spec g ha.c1 hb.c1]
  by_cases h : f2Val T p a = f2Val T p b
  · have h0 : fpVal T p a.c0 = fpVal T p b.c0 := congrArg QuadraticAlgebra.re h
    have h1 : fpVal T p a.c1 = fpVal T p b.c1 := congrArg QuadraticAlgebra.im h
    rw [if_pos h0, if_pos h1, if_pos h]; rfl
  · rw [if_neg h]
    by_cases h0 : fpVal T p a.c0 = fpVal T p b.c0
    · have h1 : fpVal T p a.c1 ≠ fpVal T p b.c1 := fun h1 => h (QuadraticAlgebra.ext h0 h1)
      rw [if_pos h0, if_neg h1]; rfl
    · rw [if_neg h0]
      split <;> rfl

theorem fp2equal_ne (g : Good T p) {a b : F2} (ha : Rng2 T (2 * p) a) (hb : Rng2 T (2 * p + 1) b) :
    fp2equal T a b ≠ 0 ↔ f2Val T p a = f2Val T p b := by
  rw [fp2equal_spec g ha hb]
  split
  · exact ⟨fun _ => by assumption, fun _ => by decide⟩
  · exact ⟨fun h => absurd rfl h, fun h => absurd h (by assumption)⟩

end

/-- The representative `2p` of zero is not found equal to zero. -/
theorem fpEqual_two_p (g : Good T p) {a : List Digit} (ha : a.length = T.n) (h : val a = 2 * p) :
    fpEqual T a (List.replicate T.n 0) = 0#8 := by
  have hs := ok.fpsub ha (List.length_replicate (n := T.n) (a := (0 : Digit)))
  obtain ⟨l1, v1⟩ := fpsub_val (T := T) (b := List.replicate T.n 0) g ha List.length_replicate
    (by rw [val_replicate_zero]; omega)
  rw [val_replicate_zero, if_pos (Nat.zero_le _), h] at v1
  obtain ⟨l2, v2⟩ := fpcorrection_val g l1
  rw [v1, if_pos (by omega)] at v2
  rw [fpEqual, hs]
  rw [Util.C53_ct_compare _ _ (by rw [digitBytes_length, digitBytes_length, l2, List.length_replicate]), if_neg]
  · rfl
  · intro hh
    have hh := congrArg leNat hh
    rw [leNat_digitBytes, leNat_digitBytes, v2, val_replicate_zero] at hh
    have := g.pos
    omega

/-! ## Square root -/

theorem powLoops_spec (g : Good T p) {n m : ℕ} {a : List Digit} (ha : Rng T (3 * p) a) (hn : 0 < n) :
    Rng T (2 * p) (powLoops T n m a) ∧ fpVal T p (powLoops T n m a) = cubes m (sqrs n (fpVal T p a)) := by
  have h1 : ∀ n, ∀ {a : List Digit}, Rng T (2 * p) a → Rng T (2 * p) ((fpsqr T)^[n] a) ∧
      fpVal T p ((fpsqr T)^[n] a) = sqrs n (fpVal T p a) := by
    intro n
    induction n with
    | zero => intro a ha; exact ⟨ha, rfl⟩
    | succ n ih =>
      intro a ha
      obtain ⟨r, v⟩ := fpsqr_spec g ha (by norm_num)
      rw [Function.iterate_succ_apply, sqrs, Function.iterate_succ_apply, ← v]
      exact ih r
  have h2 : ∀ m, ∀ {a : List Digit}, Rng T (2 * p) a → Rng T (2 * p) ((fun t1 => fpmul T t1 (fpsqr T t1))^[m] a) ∧
      fpVal T p ((fun t1 => fpmul T t1 (fpsqr T t1))^[m] a) = cubes m (fpVal T p a) := by
    intro m
    induction m with
    | zero => intro a ha; exact ⟨ha, rfl⟩
    | succ m ih =>
      intro a ha
      obtain ⟨r, v⟩ := fpsqr_spec g ha (by norm_num)
      obtain ⟨r', v'⟩ := fpmul_spec g ha r (by norm_num)
      rw [Function.iterate_succ_apply, cubes, Function.iterate_succ_apply, ← v, ← v']
      exact ih r'
  obtain ⟨k, rfl⟩ : ∃ k, n = k + 1 := ⟨n - 1, by omega⟩
  obtain ⟨r, v⟩ := fpsqr_spec g ha (by norm_num)
  obtain ⟨r1, v1⟩ := h1 k r
  obtain ⟨r2, v2⟩ := h2 m r1
  refine ⟨r2, ?_⟩
  show fpVal T p ((fun t1 => fpmul T t1 (fpsqr T t1))^[m] ((fpsqr T)^[k + 1] a)) = _
  rw [Function.iterate_succ_apply, v2, v1, v]
  rfl

end

end

section
variable {T : Tables} {p : ℕ} [hp3 : Prime3 p]

/-- `fp2sqrt` on words computes what the field-level model computes. -/
theorem fp2sqrtY_spec [Arith] [ArithOK T p] [FpEq] [FpEqOK T p] (g : Good T p) {chain : ℕ × List Instr} (he : chainExp chain.1 chain.2 = some ((p - 3) / 4))
    {e2 e3 : ℕ} (h2 : 2 < e2) (hh : half T ≤ 8 * T.n) (hpb : p ≤ 256 ^ half T) {x : F2} (hx0 : Rng T (2 * p + 1) x.c0)
    (hx1 : Rng T (2 * p) x.c1) :
    Rng2 T (2 * p) (fp2sqrtY T chain e2 e3 x) ∧
      f2Val T p (fp2sqrtY T chain e2 e3 x) = sqrtF e2 e3 (fun v => v ^ ((p - 3) / 4)) (f2Val T p x) := by
  have hp0 := g.pos
  have hz := eq_ne g hx1 (rng_zero (p := p) g (by omega : 0 < 2 * p + 1))
  rw [fpVal_zero] at hz
  have hz1 := rng_zero (p := p) g (by omega : 0 < 2 * p)
  rw [fp2sqrtY, sqrtF]
  show Rng2 T _ (if _ then _ else _) ∧ f2Val T p (if _ then _ else _) = if fpVal T p x.c1 = 0 then _ else _
  by_cases h : fpVal T p x.c1 = 0
  · rw [if_pos (hz.2 h), if_pos h]
    obtain ⟨r1, v1⟩ := powLoops_spec (m := e3) g (rng_le g hx0) (by omega : 0 < e2 - 2)
    obtain ⟨r2, v2⟩ := fpsqr_spec g r1 (by norm_num)
    have hq := eq_ne g r2 hx0
    rw [v2, v1] at hq
    show Rng2 T _ (if _ then _ else _) ∧ f2Val T p (if _ then _ else _) =
      if cubes e3 (sqrs (e2 - 2) (fpVal T p x.c0)) * cubes e3 (sqrs (e2 - 2) (fpVal T p x.c0)) = fpVal T p x.c0
      then (⟨cubes e3 (sqrs (e2 - 2) (fpVal T p x.c0)), 0⟩ : Fp2 p) else ⟨0, cubes e3 (sqrs (e2 - 2) (fpVal T p x.c0))⟩
    by_cases h3 : cubes e3 (sqrs (e2 - 2) (fpVal T p x.c0)) * cubes e3 (sqrs (e2 - 2) (fpVal T p x.c0)) = fpVal T p x.c0
    · rw [if_pos (hq.2 h3), if_pos h3]
      exact ⟨⟨r1, hz1⟩, QuadraticAlgebra.ext v1 fpVal_zero⟩
    · rw [if_neg (fun hh => h3 (hq.1 hh)), if_neg h3]
      exact ⟨⟨hz1, r1⟩, QuadraticAlgebra.ext fpVal_zero v1⟩
  · rw [if_neg (fun hh => h (hz.1 hh)), if_neg h]
    obtain ⟨r1, v1⟩ := fpsqr_spec g (rng_le g hx0) (by norm_num)
    obtain ⟨r2, v2⟩ := fpsqr_spec g hx1 (by norm_num)
    obtain ⟨r3, v3⟩ := fpadd_spec g r1 r2 (by omega)
    obtain ⟨r4, v4⟩ := powLoops_spec (m := e3) g (r3.mono (by omega)) (by omega : 0 < e2 - 2)
    obtain ⟨r5, v5⟩ := fpadd_spec g hx0 r4 (by omega)
    obtain ⟨r6, v6⟩ := fpdiv2_spec g r5 (by omega)
    obtain ⟨r7, v7⟩ := fpcorrection_spec g r6
    have hv : fpVal T p (fpcorrection T (fpdiv2 T (fpadd T x.c0 (powLoops T (e2 - 2) e3 (fpadd T (fpsqr T x.c0) (fpsqr T x.c1)))))) =
        (fpVal T p x.c0 + cubes e3 (sqrs (e2 - 2) (fpVal T p x.c0 * fpVal T p x.c0 + fpVal T p x.c1 * fpVal T p x.c1))) / 2 := by
      rw [v7, v6, v5, v4, v3, v2, v1]
    show Rng2 T _ (if _ then _ else _) ∧ f2Val T p (if _ then _ else _) = _
    show _ ∧ _ = (fun V : ZMod p => if V = V * V ^ ((p - 3) / 4) * (V * V ^ ((p - 3) / 4)) then
      (⟨V * V ^ ((p - 3) / 4), V ^ ((p - 3) / 4) * fpVal T p x.c1 / 2⟩ : Fp2 p)
      else ⟨V ^ ((p - 3) / 4) * fpVal T p x.c1 / 2, - (V * V ^ ((p - 3) / 4))⟩)
      ((fpVal T p x.c0 + cubes e3 (sqrs (e2 - 2) (fpVal T p x.c0 * fpVal T p x.c0 + fpVal T p x.c1 * fpVal T p x.c1))) / 2)
    rw [← hv]
    clear hv
    generalize fpcorrection T (fpdiv2 T (fpadd T x.c0 (powLoops T (e2 - 2) e3 (fpadd T (fpsqr T x.c0) (fpsqr T x.c1))))) = v at *
    obtain ⟨r8, v8⟩ := fpinvChain_spec g he (r7.mono (by omega : p ≤ 2 * p))
    have r7' : Rng T (2 * p) v := r7.mono (by omega)
    obtain ⟨r9, v9⟩ := fpmul_spec g r7' r8 (by norm_num)
    obtain ⟨ra, va⟩ := fpmul_spec g r8 hx1 (by norm_num)
    obtain ⟨rb, vb⟩ := fpdiv2_spec g ra (by omega)
    obtain ⟨rc, vc⟩ := fpsqr_spec g r9 (by norm_num)
    obtain ⟨rd, vd⟩ := fpcorrection_spec g rc
    obtain ⟨re, ve⟩ := fpneg_spec g (r9.mono (by omega : 2 * p ≤ 2 * p + 1))
    rw [v9] at ve
    rw [vc, v9] at vd
    rw [v8] at v9 va vd ve
    rw [va] at vb
    have hcmp : (digitBytes v).take (half T) =
        (digitBytes (fpcorrection T (fpsqr T (fpmul T v (fpinvChain T chain v))))).take (half T) ↔
        fpVal T p v = fpVal T p v * fpVal T p v ^ ((p - 3) / 4) * (fpVal T p v * fpVal T p v ^ ((p - 3) / 4)) := by
      rw [← vd]
      constructor
      · intro hh1
        have hh1 := congrArg leNat hh1
        rw [leNat_take _ _ (by rw [digitBytes_length, r7.len]; exact hh),
          leNat_take _ _ (by rw [digitBytes_length, rd.len]; exact hh), leNat_digitBytes, leNat_digitBytes,
          Nat.mod_eq_of_lt (lt_of_lt_of_le r7.lt hpb), Nat.mod_eq_of_lt (lt_of_lt_of_le rd.lt hpb)] at hh1
        rw [← val_inj (r7.len.trans rd.len.symm) hh1]
      · intro hh1
        rw [← fpVal_inj g r7 rd hh1]
    show _ ∧ _ = if fpVal T p v = fpVal T p v * fpVal T p v ^ ((p - 3) / 4) * (fpVal T p v * fpVal T p v ^ ((p - 3) / 4)) then _ else _
    by_cases h3 : fpVal T p v = fpVal T p v * fpVal T p v ^ ((p - 3) / 4) * (fpVal T p v * fpVal T p v ^ ((p - 3) / 4))
    · rw [if_pos (hcmp.2 h3), if_pos h3]
      exact ⟨⟨r9, rb⟩, QuadraticAlgebra.ext v9 vb⟩
    · rw [if_neg (fun hh => h3 (hcmp.1 hh)), if_neg h3]
      refine ⟨⟨rb, re.len, ?_⟩, QuadraticAlgebra.ext vb ve⟩
      -- `t1` is not zero, so its negative is below `2p`
      have hne : val (fpmul T v (fpinvChain T chain v)) ≠ 0 := by
        intro h0
        apply h3
        have h6 : fpVal T p (fpmul T v (fpinvChain T chain v)) = 0 := by
          rw [fpVal, h0, Nat.cast_zero, zero_mul]
        rw [← v9, h6, zero_mul]
        rw [h6] at v9
        rcases mul_eq_zero.1 v9.symm with h4 | h4
        · exact h4
        · exact pow_eq_zero_iff (n := (p - 3) / 4) (by
            intro h5
            rw [h5, pow_zero] at h4; exact absurd h4 one_ne_zero) |>.1 h4
      obtain ⟨_, hv⟩ := fpneg_val g r9.len r9.lt.le
      have := r9.lt
      show val (fpneg T (fpmul T v (fpinvChain T chain v))) < 2 * p
      omega

end

/-! ## Per parameter set -/

variable (l : Level)

theorem half_eq : half (tables l) = (Protocol.params l).fpBytes := by cases l <;> rfl

theorem half_bounds : 8 * ((tables l).n - 1) ≤ half (tables l) ∧ half (tables l) ≤ 8 * (tables l).n ∧
    l.p ≤ 256 ^ half (tables l) := by
  cases l <;> decide +kernel

/-- `fp2_encode`, when `from_mont` gives least residues -/
theorem fp2encode_of [Arith] {x : F2}
    (h0 : (fromMont (tables l) x.c0).length = (tables l).n ∧
      val (fromMont (tables l) x.c0) = (fpVal (tables l) l.p x.c0).val)
    (h1 : (fromMont (tables l) x.c1).length = (tables l).n ∧
      val (fromMont (tables l) x.c1) = (fpVal (tables l) l.p x.c1).val) :
    fp2encode (tables l) x = leBytes (Protocol.params l).fpBytes (f2Val (tables l) l.p x).re.val ++
      leBytes (Protocol.params l).fpBytes (f2Val (tables l) l.p x).im.val := by
  obtain ⟨l0, v0⟩ := h0
  obtain ⟨l1, v1⟩ := h1
  have hb := half_bounds l
  have hlt : ∀ v : ZMod l.p, v.val < 256 ^ half (tables l) := fun v =>
    lt_of_lt_of_le (ZMod.val_lt v) hb.2.2
  show encodeToBytes (fromMont (tables l) x.c0) _ ++ encodeToBytes (fromMont (tables l) x.c1) _ = _
  rw [encodeToBytes_eq (by rw [l0]; exact hb.2.1) (by rw [v0]; exact hlt _),
    encodeToBytes_eq (by rw [l1]; exact hb.2.1) (by rw [v1]; exact hlt _), v0, v1, half_eq]
  rfl

theorem half_room : 256 ^ half (tables l) ≤ 120 * l.p := by cases l <;> decide +kernel

/-- `fp2_decode`, whatever the output variable held, gives arrays below `2p` that represent the integers in the two
halves of the string modulo `p`. -/
theorem fp2decode_spec [Arith] [ArithOK (tables l) l.p] (dec : F2) (hd0 : dec.c0.length = (tables l).n)
    (hd1 : dec.c1.length = (tables l).n) (b0 b1 : List UInt8) (hb0 : b0.length = (Protocol.params l).fpBytes)
    (hb1 : b1.length = (Protocol.params l).fpBytes) :
    Rng2 (tables l) (2 * l.p) (fp2decode (tables l) dec (b0 ++ b1)) ∧
      f2Val (tables l) l.p (fp2decode (tables l) dec (b0 ++ b1)) = ⟨(leNat b0 : ZMod l.p), (leNat b1 : ZMod l.p)⟩ := by
  have g := good l
  have hb := half_bounds l
  have hh := half_eq l
  have hr := half_room l
  obtain ⟨l0, v0⟩ := decodeToDigits_val (x := b0 ++ b1) g.n_pos hd0 (by rw [List.length_append]; omega) hb.1 hb.2.1
  obtain ⟨l1, v1⟩ := decodeToDigits_val (x := (b0 ++ b1).drop (half (tables l))) g.n_pos hd1
    (by rw [List.length_drop, List.length_append]; omega) hb.1 hb.2.1
  rw [List.take_left' (by omega)] at v0
  replace v1 := v1.trans (congrArg leNat (show _ = b1 by rw [List.drop_left' (by omega), List.take_of_length_le (by omega)]))
  have k0 := leNat_lt b0
  have k1 := leNat_lt b1
  rw [hb0, ← hh] at k0
  rw [hb1, ← hh] at k1
  obtain ⟨r0, w0⟩ := toMont_spec g ⟨l0, lt_of_lt_of_le (v0 ▸ k0) hr⟩
  obtain ⟨r1, w1⟩ := toMont_spec g ⟨l1, lt_of_lt_of_le (v1 ▸ k1) hr⟩
  rw [v0] at w0
  rw [v1] at w1
  exact ⟨⟨r0, r1⟩, QuadraticAlgebra.ext w0 w1⟩

/-- Bits of the numbers `fprand` returns -/
def randBits : Level → ℕ
  | .l434 => 398
  | .l503 => 457
  | .l610 => 606
  | .l751 => 721

theorem randBits_lt : 2 ^ randBits l < l.p := by cases l <;> decide +kernel

/-- `fprand`: the number formed by the random bytes modulo a power of two -/
theorem fprand_val {bytes : List UInt8} (hb : bytes.length = 8 * (tables l).n) :
    (fprand (tables l) bytes).length = (tables l).n ∧
      val (fprand (tables l) bytes) = leNat bytes % 2 ^ randBits l := by
  have hn : ∃ m, (tables l).n = m + 1 := by cases l <;> exact ⟨_, rfl⟩
  obtain ⟨m, hm⟩ := hn
  have hlen := digitsOf_length (tables l).n bytes
  have hval := val_digitsOf (tables l).n bytes hb
  have hk : ∃ k, k ≤ 64 ∧ ((-1 : Digit) >>> ((tables l).nbits % 64)).toNat = 2 ^ k - 1 ∧ randBits l = 64 * m + k := by
    cases l
    · exact ⟨14, by norm_num, by decide +kernel, by have : 7 = m + 1 := hm; show 398 = _; omega⟩
    · exact ⟨9, by norm_num, by decide +kernel, by have : 8 = m + 1 := hm; show 457 = _; omega⟩
    · exact ⟨30, by norm_num, by decide +kernel, by have : 10 = m + 1 := hm; show 606 = _; omega⟩
    · exact ⟨17, by norm_num, by decide +kernel, by have : 12 = m + 1 := hm; show 721 = _; omega⟩
  obtain ⟨k, hk64, hk, hr⟩ := hk
  rw [fprand]
  generalize digitsOf (tables l).n bytes = el at *
  rw [← hval, hm, Nat.add_sub_cancel]
  have hel : el.length = m + 1 := hlen.trans hm
  refine ⟨by rw [List.length_modify, hel], ?_⟩
  have htk : (el.take m).length = m := by rw [List.length_take, hel]; omega
  have hs : val el = val (el.take m) + 2 ^ (64 * m) * (el.getD m 0).toNat := by
    have hsp : el = el.take m ++ [el.getD m 0] := by
      have := modify_last id 0 el m hel
      rw [List.modify_id] at this
      exact this
    conv_lhs => rw [hsp, val_append, htk]
    rw [val, val, Nat.mul_zero, Nat.add_zero]
  have hlt := val_lt (el.take m)
  rw [htk] at hlt
  rw [modify_last _ 0 el m hel, val_append, htk, val, val, Nat.mul_zero, Nat.add_zero, BitVec.toNat_and, hk,
    Nat.and_two_pow_sub_one_eq_mod, hs, hr, pow_add, Nat.mod_mul, Nat.add_mul_mod_self_left,
    Nat.mod_eq_of_lt hlt, Nat.add_mul_div_left _ _ (by positivity), Nat.div_eq_of_lt hlt, Nat.zero_add]

end Secuer.Word
