import Verif.Word32.Redc
import Verif.Word.Encode

/-!
# The 32-bit build computes the same arrays

Each function of the portable C code, compiled for 32-bit digits and run on arrays that hold the same bytes, leaves the same
bytes as the one compiled for 64-bit digits: for addition, subtraction, halving, correction and the double-length product on
all arrays, for the functions with a Montgomery reduction on products below `R p`.
-/

namespace Secuer.Word32

open Secuer.Word (UInt Bit bit_zero u0 u1)
open Secuer.Field

theorem split_length : ∀ a : List Word.Digit, (split a).length = 2 * a.length
  | [] => rfl
  | x :: xs => by rw [split, List.length_cons, List.length_cons, split_length xs, List.length_cons]; omega

theorem val_split : ∀ a : List Word.Digit, val (split a) = Word.val a
  | [] => rfl
  | x :: xs => by
    have := x.isLt
    rw [split, val, val, val_split xs, Word.val, BitVec.toNat_setWidth, BitVec.toNat_setWidth, BitVec.toNat_ushiftRight,
      Nat.shiftRight_eq_div_pow]
    omega

theorem split_eq {c : List Digit} {c' : List Word.Digit} (hl : c.length = 2 * c'.length) (hv : val c = Word.val c') :
    c = split c' := val_inj (by rw [split_length, hl]) (by rw [val_split, hv])

theorem split_inj {a b : List Word.Digit} (hl : a.length = b.length) (h : split a = split b) : a = b :=
  Word.val_inj hl (by rw [← val_split, ← val_split, h])

theorem split_append : ∀ a b : List Word.Digit, split (a ++ b) = split a ++ split b
  | [], _ => rfl
  | x :: xs, b => by rw [List.cons_append, split, split, split_append xs b]; rfl

theorem split_take : ∀ (n : ℕ) (a : List Word.Digit), split (a.take n) = (split a).take (2 * n)
  | 0, a => rfl
  | n + 1, [] => rfl
  | n + 1, x :: xs => by rw [List.take_succ_cons, split, split_take n xs]; rfl

theorem split_drop : ∀ (n : ℕ) (a : List Word.Digit), split (a.drop n) = (split a).drop (2 * n)
  | 0, a => rfl
  | n + 1, [] => rfl
  | n + 1, x :: xs => by rw [List.drop_succ_cons, split_drop n xs]; rfl

theorem split_replicate : ∀ n : ℕ, split (List.replicate n 0) = List.replicate (2 * n) 0
  | 0 => rfl
  | n + 1 => by rw [List.replicate_succ, split, split_replicate n]; rfl

theorem carry_unique {R x x' : ℕ} {c c' : UInt} (hx : x < R) (hx' : x' < R) (h : x + R * c.toNat = x' + R * c'.toNat) :
    x = x' ∧ c = c' := by
  have h1 : (x + R * c.toNat) % R = x := by rw [Nat.add_mul_mod_self_left, Nat.mod_eq_of_lt hx]
  have h2 : (x' + R * c'.toNat) % R = x' := by rw [Nat.add_mul_mod_self_left, Nat.mod_eq_of_lt hx']
  have h3 : (x + R * c.toNat) / R = c.toNat := by rw [Nat.add_mul_div_left _ _ (by omega), Nat.div_eq_of_lt hx, Nat.zero_add]
  have h4 : (x' + R * c'.toNat) / R = c'.toNat := by rw [Nat.add_mul_div_left _ _ (by omega), Nat.div_eq_of_lt hx', Nat.zero_add]
  rw [h] at h1 h3
  exact ⟨h1.symm.trans h2, BitVec.eq_of_toNat_eq (h3.symm.trans h4)⟩

theorem pow_eq (n : ℕ) : 2 ^ (32 * (2 * n)) = 2 ^ (64 * n) := by congr 1; ring

theorem addLoop_split {a b : List Word.Digit} {c : UInt} (hc : Bit c) (h : a.length = b.length) :
    addLoop c (split a) (split b) = ((Word.addLoop c a b).1, split (Word.addLoop c a b).2) := by
  obtain ⟨l1, _, v1⟩ := Word.addLoop_spec hc h
  obtain ⟨l2, _, v2⟩ := addLoop_spec (a := split a) (b := split b) hc (by rw [split_length, split_length, h])
  rw [split_length] at l2 v2
  rw [val_split, val_split, ← v1, pow_eq] at v2
  have b1 := Word.val_lt (Word.addLoop c a b).2
  have b2 := val_lt (addLoop c (split a) (split b)).2
  rw [l1] at b1
  rw [l2, pow_eq] at b2
  obtain ⟨e1, e2⟩ := carry_unique b2 b1 v2
  exact Prod.ext e2 (split_eq (by rw [l2, l1]) e1)

theorem subLoop_split {a b : List Word.Digit} {c : UInt} (hc : Bit c) (h : a.length = b.length) :
    subLoop c (split a) (split b) = ((Word.subLoop c a b).1, split (Word.subLoop c a b).2) := by
  obtain ⟨l1, _, v1⟩ := Word.subLoop_spec hc h
  obtain ⟨l2, _, v2⟩ := subLoop_spec (a := split a) (b := split b) hc (by rw [split_length, split_length, h])
  rw [split_length] at l2 v2
  rw [val_split, val_split, pow_eq] at v2
  have b1 := Word.val_lt (Word.subLoop c a b).2
  have b2 := val_lt (subLoop c (split a) (split b)).2
  rw [l1] at b1
  rw [l2, pow_eq] at b2
  obtain ⟨e1, e2⟩ := carry_unique (c := (Word.subLoop c a b).1) (c' := (subLoop c (split a) (split b)).1) b2 b1 (by omega)
  exact Prod.ext e2.symm (split_eq (by rw [l2, l1]) e1)

theorem masked_split {c : UInt} (hc : Bit c) (x : List Word.Digit) :
    masked (maskOf c) (split x) = split (Word.masked (Word.maskOf c) x) :=
  split_eq (by rw [masked_length, split_length, Word.masked_length]) (by rw [val_masked hc, val_split, Word.val_masked hc])

theorem shiftr1_split (x : List Word.Digit) : shiftr1 (split x) = split (Word.shiftr1 x) :=
  split_eq (by rw [shiftr1_length, split_length, Word.shiftr1_length]) (by rw [val_shiftr1, val_split, Word.val_shiftr1])

theorem mpMul_split {n : ℕ} (hn : 0 < n) (hn' : n < 2 ^ 31) {a b : List Word.Digit} (ha : a.length = n) (hb : b.length = n) :
    mpMul (2 * n) (split a) (split b) = (Word.mpMul n a b).map split := by
  obtain ⟨c, e, l, v⟩ := Word.mpMul_spec hn (by omega) ha hb
  obtain ⟨c', e', l', v'⟩ := mpMul_spec (a := split a) (b := split b) (n := 2 * n) (by omega) (by omega)
    (by rw [split_length, ha]) (by rw [split_length, hb])
  have hs : c' = split c := split_eq (by rw [l', l]) (by rw [v', v, val_split, val_split])
  rw [e, e', hs]
  rfl

/-! ## The parameter sets -/

variable {l : Level}

theorem tables_n : (tables l).n = 2 * (Word.tables l).n := by cases l <;> rfl

theorem good (l : Level) : Good (tables l) l.p := by
  cases l <;> constructor <;> decide +kernel

section
variable {a b : List Word.Digit} (ha : a.length = (Word.tables l).n) (hb : b.length = (Word.tables l).n)
include ha hb

theorem subP2C_split : subP2C (tables l) (split a) (split b) = split (Word.subP2C (Word.tables l) a b) := by
  have g := Word.good l
  rw [subP2C, Word.subP2C, subLoop_split bit_zero (ha.trans hb.symm)]
  show (addLoop 0 _ (split (Word.tables l).x2)).2 = _
  rw [addLoop_split bit_zero ((Word.subLoop_spec bit_zero (ha.trans hb.symm)).1.trans (ha.trans g.len_x2.symm))]

theorem subP4_split : subP4 (tables l) (split a) (split b) = split (Word.subP4 (Word.tables l) a b) := by
  have g := Word.good l
  rw [subP4, Word.subP4, subLoop_split bit_zero (ha.trans hb.symm)]
  show (addLoop 0 _ (split (Word.tables l).x4)).2 = _
  rw [addLoop_split bit_zero ((Word.subLoop_spec bit_zero (ha.trans hb.symm)).1.trans (ha.trans g.len_x4.symm))]

theorem fixup_split {x : List Word.Digit} (hx : x.length = (Word.tables l).n) :
    (addLoop 0 (subLoop 0 (split a) (split b)).2 (masked (maskOf (subLoop 0 (split a) (split b)).1) (split x))).2 =
      split (Word.addLoop 0 (Word.subLoop 0 a b).2 (Word.masked (Word.maskOf (Word.subLoop 0 a b).1) x)).2 := by
  obtain ⟨l1, h1, _⟩ := Word.subLoop_spec bit_zero (ha.trans hb.symm)
  rw [subLoop_split bit_zero (ha.trans hb.symm)]
  show (addLoop 0 (split _) (masked (maskOf (Word.subLoop 0 a b).1) (split x))).2 = _
  rw [masked_split h1, addLoop_split bit_zero (l1.trans (ha.trans (hx.symm.trans (Word.masked_length _ _).symm)))]

theorem fpaddC_split : fpaddC (tables l) (split a) (split b) = split (Word.fpaddC (Word.tables l) a b) := by
  have g := Word.good l
  rw [fpaddC, Word.fpaddC, addLoop_split bit_zero (ha.trans hb.symm)]
  exact fixup_split ((Word.addLoop_spec bit_zero (ha.trans hb.symm)).1.trans ha) g.len_x2 g.len_x2

theorem fpsubC_split : fpsubC (tables l) (split a) (split b) = split (Word.fpsubC (Word.tables l) a b) :=
  fixup_split ha hb (Word.good l).len_x2

theorem mpAddfastC_split : mpAddfastC (split a) (split b) = split (Word.mpAddfastC a b) := by
  rw [mpAddfastC, mpAdd, addLoop_split bit_zero (ha.trans hb.symm)]
  rfl

theorem mpSub_split : mpSub (split a) (split b) = ((Word.mpSub a b).1, split (Word.mpSub a b).2) :=
  subLoop_split bit_zero (ha.trans hb.symm)

omit hb

theorem fpneg_split : fpneg (tables l) (split a) = split (Word.fpneg (Word.tables l) a) := by
  rw [fpneg, Word.fpneg]
  show (subLoop 0 (split (Word.tables l).x2) _).2 = _
  rw [subLoop_split bit_zero ((Word.good l).len_x2.trans ha.symm)]

theorem fpcorrection_split : fpcorrection (tables l) (split a) = split (Word.fpcorrection (Word.tables l) a) :=
  fixup_split ha (Word.good l).len_p (Word.good l).len_p

omit ha in
theorem headD_mask (a : List Word.Digit) : (0 - (a.headD 0 &&& 1) : Word.Digit) = Word.maskOf (if Word.val a % 2 = 1 then 1 else 0) ∧
    (0 - ((split a).headD 0 &&& 1) : Digit) = maskOf (if Word.val a % 2 = 1 then 1 else 0) := by
  have e : (a.headD 0 &&& 1 : Word.Digit) = (if Word.val a % 2 = 1 then 1 else 0) := by
    apply BitVec.eq_of_toNat_eq
    rw [BitVec.toNat_and]
    have : (1 : Word.Digit).toNat = 2 ^ 1 - 1 := rfl
    rw [this, Nat.and_two_pow_sub_one_eq_mod, pow_one, Word.headD_mod]
    by_cases h1 : Word.val a % 2 = 1
    · rw [if_pos h1, h1]; rfl
    · rw [if_neg h1]; show _ = 0; omega
  have e' : ((split a).headD 0 &&& 1 : Digit) = (if Word.val a % 2 = 1 then 1 else 0) := by
    apply BitVec.eq_of_toNat_eq
    rw [BitVec.toNat_and]
    have : (1 : Digit).toNat = 2 ^ 1 - 1 := rfl
    have hm : ∀ x : List Digit, (x.headD 0).toNat % 2 = val x % 2 := by
      intro x
      cases x with
      | nil => rfl
      | cons x xs => show x.toNat % 2 = _; rw [val]; omega
    rw [this, Nat.and_two_pow_sub_one_eq_mod, pow_one, hm, val_split]
    by_cases h1 : Word.val a % 2 = 1
    · rw [if_pos h1, h1]; rfl
    · rw [if_neg h1]; show _ = 0; omega
  rw [e, e']
  by_cases h1 : Word.val a % 2 = 1
  · simp only [if_pos h1]; exact ⟨rfl, rfl⟩
  · simp only [if_neg h1]; exact ⟨rfl, rfl⟩

theorem fpdiv2_split : fpdiv2 (tables l) (split a) = split (Word.fpdiv2 (Word.tables l) a) := by
  obtain ⟨e1, e2⟩ := headD_mask a
  have hb : Bit (if Word.val a % 2 = 1 then 1 else 0) := Word.bit_ite _
  unfold fpdiv2 Word.fpdiv2
  rw [e1, e2]
  show shiftr1 (addLoop 0 _ (masked _ (split (Word.tables l).p))).2 = _
  rw [masked_split hb, addLoop_split bit_zero (ha.trans ((Word.good l).len_p.symm.trans (Word.masked_length _ _).symm)), shiftr1_split]

end

/-! ## Montgomery reduction -/

theorem exact_unique {R p m q q' c c' : ℕ} (hc : Nat.Coprime R p) (hq : q < R) (hq' : q' < R)
    (h : c * R = m + q * p) (h' : c' * R = m + q' * p) : c = c' := by
  have h1 : m + q * p ≡ m + q' * p [MOD R] := by
    rw [← h, ← h']
    exact ((Nat.modEq_zero_iff_dvd.2 (Dvd.intro_left c rfl))).trans ((Nat.modEq_zero_iff_dvd.2 (Dvd.intro_left c' rfl))).symm
  have h2 : q * p ≡ q' * p [MOD R] := Nat.ModEq.add_left_cancel' _ h1
  have h3 : q ≡ q' [MOD R] := Nat.ModEq.cancel_right_of_coprime (by rw [Nat.coprime_iff_gcd_eq_one] at hc; exact hc) h2
  have h4 : q = q' := by
    have := h3
    rwa [Nat.ModEq, Nat.mod_eq_of_lt hq, Nat.mod_eq_of_lt hq'] at this
  rw [← h4, ← h] at h'
  exact (Nat.eq_of_mul_eq_mul_right (by omega) h').symm

theorem rdcMont_split {m : List Word.Digit} (hm : m.length = 2 * (Word.tables l).n)
    (hlt : Word.val m < 2 ^ (64 * (Word.tables l).n) * l.p) :
    rdcMont (tables l) (split m) = (Word.rdcMont (Word.tables l) m).map split := by
  obtain ⟨c, q, e, lc, hq, v⟩ := Word.rdcMont_exact (Word.good l) hm hlt
  obtain ⟨c', q', e', lc', hq', v'⟩ := rdcMont_exact (good l) (ma := split m) (by rw [split_length, hm, tables_n])
    (by rw [val_split, tables_n, pow_eq]; exact hlt)
  rw [tables_n, pow_eq] at hq' v'
  rw [val_split] at v'
  have hodd := (Word.good l).odd
  have hco : Nat.Coprime (2 ^ (64 * (Word.tables l).n)) l.p :=
    Nat.Coprime.pow_left _ (Nat.coprime_two_left.2 (Nat.odd_iff.2 hodd))
  have hs : c' = split c := split_eq (by rw [lc', lc, tables_n]) (exact_unique hco hq' hq v' v)
  rw [e, e', hs]
  rfl

theorem fpmul?_split {a b : List Word.Digit} (ha : a.length = (Word.tables l).n) (hb : b.length = (Word.tables l).n)
    (h : Word.val a * Word.val b < 2 ^ (64 * (Word.tables l).n) * l.p) :
    fpmul? (tables l) (split a) (split b) = (Word.fpmul? (Word.tables l) a b).map split := by
  have g := Word.good l
  obtain ⟨m, e1, l1, v1⟩ := Word.mpMul_spec g.n_pos (by have := g.n_lt; omega) ha hb
  have e2 := rdcMont_split (l := l) l1 (by rw [v1]; exact h)
  rw [fpmul?, Word.fpmul?, tables_n, mpMul_split g.n_pos g.n_lt ha hb, e1]
  exact e2

theorem fpmulC_split {a b : List Word.Digit} (ha : a.length = (Word.tables l).n) (hb : b.length = (Word.tables l).n)
    (h : Word.val a * Word.val b < 2 ^ (64 * (Word.tables l).n) * l.p) :
    fpmulC (tables l) (split a) (split b) = split (Word.fpmulC (Word.tables l) a b) := by
  obtain ⟨c, _, e, _⟩ := Word.fpmul_exact (Word.good l) ha hb h
  rw [fpmulC, fpmul?_split ha hb h, Word.fpmulC, e]
  rfl

/-! ## The extension -/

/-- `mp_addfast` without overflow -/
theorem rng_add {a b : List Word.Digit} {B C : ℕ} (ha : Word.Rng (Word.tables l) B a) (hb : Word.Rng (Word.tables l) C b)
    (h : B + C ≤ 256 * l.p) :
    Word.Rng (Word.tables l) (B + C) (Word.mpAddfastC a b) ∧ Word.val (Word.mpAddfastC a b) = Word.val a + Word.val b := by
  have := (Word.good l).room
  have h1 := ha.lt
  have h2 := hb.lt
  obtain ⟨l1, v1⟩ := Word.add0_exact ha.len hb.len (by omega)
  exact ⟨⟨l1, by rw [Word.mpAddfastC, Word.mpAdd, v1]; omega⟩, v1⟩

theorem fp2sqrC_split {a : Word.F2} (ha : Word.Rng2 (Word.tables l) (4 * l.p) a) :
    fp2sqrC (tables l) (split2 a) = split2 (Word.fp2sqrC (Word.tables l) a) := by
  have g := Word.good l
  have hroom := g.room
  have h0 := ha.c0.lt
  have h1 := ha.c1.lt
  obtain ⟨r1, _⟩ := rng_add ha.c0 ha.c1 (by omega)
  obtain ⟨l2, v2⟩ := Word.subP4_val g ha.c0.len ha.c1.len (by omega) (by omega)
  have r2 : Word.Rng (Word.tables l) (8 * l.p) (Word.subP4 (Word.tables l) a.c0 a.c1) := ⟨l2, by rw [v2]; omega⟩
  obtain ⟨r3, _⟩ := rng_add ha.c0 ha.c0 (by omega)
  have b0 := Word.mul_bound g (B := 8) (C := 8) (r1.mono (by omega)).lt (r2.mono (by omega)).lt (by norm_num)
  have b1 := Word.mul_bound g (B := 8) (C := 4) (r3.mono (by omega)).lt ha.c1.lt (by norm_num)
  unfold fp2sqrC Word.fp2sqrC split2
  dsimp only
  rw [mpAddfastC_split ha.c0.len ha.c1.len, subP4_split ha.c0.len ha.c1.len, mpAddfastC_split ha.c0.len ha.c0.len,
    fpmulC_split r1.len r2.len b0, fpmulC_split r3.len ha.c1.len b1]

theorem mpDblsubfast_split {n : ℕ} {a b c : List Word.Digit} (ha : a.length = n) (hb : b.length = n) (hc : c.length = n) :
    mpDblsubfast (split a) (split b) (split c) = split (Word.mpDblsubfast a b c) := by
  unfold mpDblsubfast Word.mpDblsubfast mpSub Word.mpSub
  dsimp only
  rw [subLoop_split bit_zero (hc.trans ha.symm)]
  dsimp only
  rw [subLoop_split bit_zero ((Word.subLoop_spec bit_zero (hc.trans ha.symm)).1.trans (hc.trans hb.symm))]

theorem mpSubaddfast_split {a b : List Word.Digit} (ha : a.length = 2 * (Word.tables l).n) (hb : b.length = 2 * (Word.tables l).n) :
    mpSubaddfast (tables l) (split a) (split b) = split (Word.mpSubaddfast (Word.tables l) a b) := by
  obtain ⟨l1, h1, _⟩ := Word.subLoop_spec bit_zero (ha.trans hb.symm)
  unfold mpSubaddfast Word.mpSubaddfast mpSub Word.mpSub
  dsimp only
  rw [subLoop_split bit_zero (ha.trans hb.symm)]
  dsimp only
  rw [show (tables l).p = split (Word.tables l).p from rfl, masked_split h1, tables_n, ← split_take, ← split_drop,
    mpAddfastC_split (l := l) (by rw [List.length_drop, l1, ha]; omega) ((Word.masked_length _ _).trans (Word.good l).len_p),
    ← split_append]

theorem fp2mul?_split {a b : Word.F2} {B C : ℕ} (ha : Word.Rng2 (Word.tables l) (B * l.p) a)
    (hb : Word.Rng2 (Word.tables l) (C * l.p) b) (hB : B ≤ 64) (hC : C ≤ 64) (h : 2 * B * C ≤ 256) :
    fp2mul? (tables l) (split2 a) (split2 b) = (Word.fp2mul? (Word.tables l) a b).map split2 := by
  have g := Word.good l
  have hn := g.n_pos
  have hn' : (Word.tables l).n < 2 ^ 32 := by have := g.n_lt; omega
  have hBp : B * l.p + B * l.p ≤ 256 * l.p := by
    rw [← Nat.add_mul]; exact Nat.mul_le_mul_right _ (by omega)
  have hCp : C * l.p + C * l.p ≤ 256 * l.p := by
    rw [← Nat.add_mul]; exact Nat.mul_le_mul_right _ (by omega)
  obtain ⟨r1, v1⟩ := rng_add ha.c0 ha.c1 hBp
  obtain ⟨r2, v2⟩ := rng_add hb.c0 hb.c1 hCp
  obtain ⟨m1, e1, l1, w1⟩ := Word.mpMul_spec hn hn' ha.c0.len hb.c0.len
  obtain ⟨m2, e2, l2, w2⟩ := Word.mpMul_spec hn hn' ha.c1.len hb.c1.len
  obtain ⟨m3, e3, l3, w3⟩ := Word.mpMul_spec hn hn' r1.len r2.len
  have s1 := mpMul_split hn g.n_lt ha.c0.len hb.c0.len
  have s2 := mpMul_split hn g.n_lt ha.c1.len hb.c1.len
  have s3 := mpMul_split hn g.n_lt r1.len r2.len
  rw [v1, v2] at w3
  have ha0 := ha.c0.lt
  have ha1 := ha.c1.lt
  have hb0 := hb.c0.lt
  have hb1 := hb.c1.lt
  have hprod : ∀ x y, x < B * l.p → y < C * l.p → 2 * (x * y) < 2 ^ (64 * (Word.tables l).n) * l.p := by
    intro x y hx hy
    have h1 := Word.mul_bound g (x := 2 * x) (y := y) (B := 2 * B) (C := C) (by rw [Nat.mul_assoc]; omega) hy h
    calc 2 * (x * y) = 2 * x * y := by ring
      _ < _ := h1
  have q00 := hprod _ _ ha0 hb0
  have q01 := hprod _ _ ha0 hb1
  have q10 := hprod _ _ ha1 hb0
  have q11 := hprod _ _ ha1 hb1
  have hexp : (Word.val a.c0 + Word.val a.c1) * (Word.val b.c0 + Word.val b.c1) = Word.val a.c0 * Word.val b.c0 +
    Word.val a.c1 * Word.val b.c1 + (Word.val a.c0 * Word.val b.c1 + Word.val a.c1 * Word.val b.c0) := by ring
  obtain ⟨l4, w4⟩ := Word.mpDblsubfast_val l1 l2 l3 (by omega)
  obtain ⟨l5, w5⟩ := Word.mpSubaddfast_val g l1 l2 (by omega)
  have f1 := rdcMont_split (l := l) l4 (by rw [w4, w3, w1, w2]; omega)
  have f0 := rdcMont_split (l := l) l5 (by
    rw [w5, w1, w2]
    split <;> omega)
  obtain ⟨c1, _, k1, _⟩ := Word.rdcMont_exact g l4 (by rw [w4, w3, w1, w2]; omega)
  obtain ⟨c0, _, k0, _⟩ := Word.rdcMont_exact g l5 (by
    rw [w5, w1, w2]
    split <;> omega)
  rw [k1] at f1
  rw [k0] at f0
  rw [e1] at s1
  rw [e2] at s2
  rw [e3] at s3
  simp only [fp2mul?, Word.fp2mul?, split2, tables_n, mpAddfastC_split ha.c0.len ha.c1.len, mpAddfastC_split hb.c0.len hb.c1.len,
    s1, s2, s3, e1, e2, e3, Option.map_some, Option.bind_eq_bind, Option.bind_some, mpDblsubfast_split l1 l2 l3,
    mpSubaddfast_split l1 l2, f1, f0, k1, k0]

theorem fp2mulC_split {a b : Word.F2} {B C : ℕ} (ha : Word.Rng2 (Word.tables l) (B * l.p) a)
    (hb : Word.Rng2 (Word.tables l) (C * l.p) b) (hB : B ≤ 64) (hC : C ≤ 64) (h : 2 * B * C ≤ 256) :
    fp2mulC (tables l) (split2 a) (split2 b) = split2 (Word.fp2mulC (Word.tables l) a b) := by
  rw [fp2mulC, fp2mul?_split ha hb hB hC h, Word.fp2mulC]
  cases Word.fp2mul? (Word.tables l) a b <;> rfl

end Secuer.Word32
