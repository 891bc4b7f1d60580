import Verif.Word.Fp
import Verif.Field.Level

/-!
# The quadratic extension on words, and the four parameter sets
-/

namespace Secuer.Word

open Secuer.Field

variable {T : Tables} {p : ℕ}

/-- Both components in range -/
structure Rng2 (T : Tables) (b : ℕ) (x : F2) : Prop where
  c0 : Rng T b x.c0
  c1 : Rng T b x.c1

theorem Rng2.mono {b b' : ℕ} {x : F2} (h : Rng2 T b x) (hb : b ≤ b') : Rng2 T b' x := ⟨h.c0.mono hb, h.c1.mono hb⟩

/-- The element of `GF(p²)` a pair of arrays stands for -/
def f2Val (T : Tables) (p : ℕ) (x : F2) : Fp2 p := ⟨fpVal T p x.c0, fpVal T p x.c1⟩

theorem mpDblsubfast_val {n : ℕ} {a b c : List Digit} (ha : a.length = n) (hb : b.length = n) (hc : c.length = n)
    (h : val a + val b ≤ val c) :
    (mpDblsubfast a b c).length = n ∧ val (mpDblsubfast a b c) = val c - val a - val b := by
  obtain ⟨l1, _, h1⟩ := sub0 hc ha
  obtain ⟨l2, _, h2⟩ := sub0 l1 hb
  refine ⟨l2, ?_⟩
  rw [mpDblsubfast, mpSub, mpSub]
  rcases h1 with ⟨_, _, h1⟩ | ⟨h1, _, _⟩
  · rcases h2 with ⟨_, _, h2⟩ | ⟨h2, _, _⟩
    · rw [h2, h1]
    · omega
  · omega

theorem val_take_drop {x : List Digit} {n : ℕ} (hn : n ≤ x.length) :
    val (x.take n) + 2 ^ (64 * n) * val (x.drop n) = val x := by
  conv_rhs => rw [← List.take_append_drop n x]
  rw [val_append, List.length_take, Nat.min_eq_left hn]

theorem mpSubaddfast_val (g : Good T p) {a b : List Digit} (ha : a.length = 2 * T.n) (hb : b.length = 2 * T.n)
    (h : val b ≤ val a + 2 ^ (64 * T.n) * p) :
    (mpSubaddfast T a b).length = 2 * T.n ∧
      val (mpSubaddfast T a b) = if val b ≤ val a then val a - val b else val a + 2 ^ (64 * T.n) * p - val b := by
  obtain ⟨l1, hb1, h1⟩ := sub0 ha hb
  have ltk : ((subLoop 0 a b).2.take T.n).length = T.n := by rw [List.length_take, l1]; omega
  have ldr : ((subLoop 0 a b).2.drop T.n).length = T.n := by rw [List.length_drop, l1]; omega
  obtain ⟨l2, h2⟩ := add0 ldr ((masked_length (maskOf (subLoop 0 a b).1) T.p).trans g.len_p)
  have hsplit := val_take_drop (x := (subLoop 0 a b).2) (n := T.n) (by rw [l1]; omega)
  have hroom := g.room
  have hlt := val_lt ((subLoop 0 a b).2.take T.n)
  rw [ltk] at hlt
  have hlt2 := val_lt ((subLoop 0 a b).2.drop T.n)
  rw [ldr] at hlt2
  refine ⟨by
    rw [mpSubaddfast, mpSub, mpAddfastC, mpAdd, List.length_append, ltk, l2]; omega, ?_⟩
  rw [mpSubaddfast, mpSub, mpAddfastC, mpAdd, val_append, ltk, h2, val_masked hb1, g.val_p]
  have e2 : (2 : ℕ) ^ (64 * (2 * T.n)) = 2 ^ (64 * T.n) * 2 ^ (64 * T.n) := by rw [← pow_add]; congr 1; ring
  rcases h1 with ⟨h3, h5, h4⟩ | ⟨h3, h5, h4⟩
  · rw [if_pos h3, h5, Nat.zero_mul, Nat.add_zero, Nat.mod_eq_of_lt hlt2, hsplit, h4]
  · rw [if_neg (by omega), h5, Nat.one_mul]
    rw [h4, e2] at hsplit
    generalize val ((subLoop 0 a b).2.take T.n) = lo at *
    generalize val ((subLoop 0 a b).2.drop T.n) = hi at *
    have hR : 0 < 2 ^ (64 * T.n) := by positivity
    have hbb := val_lt b
    rw [hb, e2] at hbb
    generalize 2 ^ (64 * T.n) = R at *
    have hhi : R * R ≤ R * (hi + p) + lo := by
      have : R * (hi + p) = R * hi + R * p := by ring
      omega
    have hge : R ≤ hi + p := by
      by_contra hcon
      have h7 : hi + p + 1 ≤ R := by omega
      have := Nat.mul_le_mul_left R h7
      rw [Nat.mul_add, Nat.mul_one] at this
      omega
    have e3 : (hi + p) % R = hi + p - R := by
      rw [Nat.mod_eq_sub_mod hge, Nat.mod_eq_of_lt (by omega)]
    have hmul := Nat.mul_le_mul_left R hge
    rw [Nat.mul_add] at hmul
    rw [e3, Nat.mul_sub, Nat.mul_add]
    omega

section
variable [hp : Fact p.Prime]

theorem rdc_val (g : Good T p) {ma : List Digit} (hma : ma.length = 2 * T.n) (h : val ma < 2 ^ (64 * T.n) * p) :
    ∃ c, rdcMont T ma = some c ∧ Rng T (2 * p) c ∧ (val c : ZMod p) = (val ma : ZMod p) * ((2 : ZMod p) ^ (64 * T.n))⁻¹ := by
  obtain ⟨c, q, e, l, hq, hv⟩ := rdcMont_exact g hma h
  exact ⟨c, e, ⟨l, lt_two_of_exact hq h hv⟩, exact_val g hv⟩

/-- `fp2mul_mont` computes the product and stays inside its arrays. -/
theorem fp2mul?_spec (g : Good T p) {a b : F2} {B C : ℕ} (ha : Rng2 T (B * p) a) (hb : Rng2 T (C * p) b)
    (hB : B ≤ 64) (hC : C ≤ 64) (h : 2 * B * C ≤ 256) :
    ∃ c, fp2mul? T a b = some c ∧ Rng2 T (2 * p) c ∧ f2Val T p c = f2Val T p a * f2Val T p b := by
  have hn := g.n_pos
  have hn' : T.n < 2 ^ 32 := by have := g.n_lt; omega
  have hBp : B * p + B * p ≤ 256 * p := by
    rw [← Nat.add_mul]; exact Nat.mul_le_mul_right _ (by omega)
  have hCp : C * p + C * p ≤ 256 * p := by
    rw [← Nat.add_mul]; exact Nat.mul_le_mul_right _ (by omega)
  obtain ⟨r1, v1, _⟩ := mpAddfastC_spec g ha.c0 ha.c1 hBp
  obtain ⟨r2, v2, _⟩ := mpAddfastC_spec g hb.c0 hb.c1 hCp
  obtain ⟨m1, e1, l1, w1⟩ := mpMul_spec hn hn' ha.c0.len hb.c0.len
  obtain ⟨m2, e2, l2, w2⟩ := mpMul_spec hn hn' ha.c1.len hb.c1.len
  obtain ⟨m3, e3, l3, w3⟩ := mpMul_spec hn hn' r1.len r2.len
  rw [v1, v2] at w3
  have ha0 := ha.c0.lt
  have ha1 := ha.c1.lt
  have hb0 := hb.c0.lt
  have hb1 := hb.c1.lt
  generalize hx0 : val a.c0 = a0 at *
  generalize hx1 : val a.c1 = a1 at *
  generalize hy0 : val b.c0 = b0 at *
  generalize hy1 : val b.c1 = b1 at *
  have hexp : (a0 + a1) * (b0 + b1) = a0 * b0 + a1 * b1 + (a0 * b1 + a1 * b0) := by ring
  obtain ⟨l4, w4⟩ := mpDblsubfast_val l1 l2 l3 (by omega)
  have hBC : B * C ≤ 256 := by nlinarith
  have hprod : ∀ x y, x < B * p → y < C * p → 2 * (x * y) < 2 ^ (64 * T.n) * p := by
    intro x y hx hy
    have h1 := mul_bound g (x := 2 * x) (y := y) (B := 2 * B) (C := C) (by rw [Nat.mul_assoc]; omega) hy h
    calc 2 * (x * y) = 2 * x * y := by ring
      _ < _ := h1
  have q00 := hprod a0 b0 ha0 hb0
  have q01 := hprod a0 b1 ha0 hb1
  have q10 := hprod a1 b0 ha1 hb0
  have q11 := hprod a1 b1 ha1 hb1
  obtain ⟨l5, w5⟩ := mpSubaddfast_val g l1 l2 (by omega)
  obtain ⟨c1, f1, s1, u1⟩ := rdc_val g l4 (by rw [w4, w3, w1, w2]; omega)
  obtain ⟨c0, f0, s0, u0⟩ := rdc_val g l5 (by
    rw [w5, w1, w2]
    split <;> omega)
  refine ⟨⟨c0, c1⟩, ?_, ⟨s0, s1⟩, ?_⟩
  · rw [fp2mul?, e1]
    show (mpMul T.n a.c1 b.c1).bind _ = _
    rw [e2]
    show (mpMul T.n (mpAddfastC a.c0 a.c1) (mpAddfastC b.c0 b.c1)).bind _ = _
    rw [e3]
    show (rdcMont T (mpDblsubfast m1 m2 m3)).bind _ = _
    rw [f1]
    show (rdcMont T (mpSubaddfast T m1 m2)).bind _ = _
    rw [f0]
    rfl
  · ext
    · rw [QuadraticAlgebra.re_mul]
      simp only [f2Val, fpVal]
      rw [u0, w5, w1, w2, hx0, hx1, hy0, hy1]
      have : ((if a1 * b1 ≤ a0 * b0 then a0 * b0 - a1 * b1 else a0 * b0 + 2 ^ (64 * T.n) * p - a1 * b1 : ℕ) : ZMod p) =
          (a0 : ZMod p) * b0 - a1 * b1 := by
        split
        · rw [Nat.cast_sub (by assumption), Nat.cast_mul, Nat.cast_mul]
        · rw [Nat.cast_sub (by omega), Nat.cast_add, cast_kp, add_zero, Nat.cast_mul, Nat.cast_mul]
      rw [this]
      ring
    · rw [QuadraticAlgebra.im_mul]
      simp only [f2Val, fpVal]
      rw [u1, w4, w3, w1, w2, hx0, hx1, hy0, hy1,
        show (a0 + a1) * (b0 + b1) - a0 * b0 - a1 * b1 = a0 * b1 + a1 * b0 by omega]
      rw [Nat.cast_add, Nat.cast_mul, Nat.cast_mul]
      ring

theorem fp2mulC_spec (g : Good T p) {a b : F2} {B C : ℕ} (ha : Rng2 T (B * p) a) (hb : Rng2 T (C * p) b)
    (hB : B ≤ 64) (hC : C ≤ 64) (h : 2 * B * C ≤ 256) :
    Rng2 T (2 * p) (fp2mulC T a b) ∧ f2Val T p (fp2mulC T a b) = f2Val T p a * f2Val T p b := by
  obtain ⟨c, e, h1, h2⟩ := fp2mul?_spec g ha hb hB hC h
  rw [fp2mulC, e]
  exact ⟨h1, h2⟩

theorem fp2sqrC_spec (g : Good T p) {a : F2} {B : ℕ} (ha : Rng2 T (B * p) a) (hB : B ≤ 4) :
    Rng2 T (2 * p) (fp2sqrC T a) ∧ f2Val T p (fp2sqrC T a) = f2Val T p a * f2Val T p a := by
  have hBp : B * p ≤ 4 * p := Nat.mul_le_mul_right _ hB
  obtain ⟨r1, _, v1⟩ := mpAddfastC_spec g ha.c0 ha.c1 (by omega)
  obtain ⟨r2, v2⟩ := subP4_spec g ha.c0 ha.c1 (by omega) (by omega)
  obtain ⟨r3, _, v3⟩ := mpAddfastC_spec g ha.c0 ha.c0 (by omega)
  obtain ⟨s0, w0⟩ := fpmulC_spec g (B := 8) (C := 8) (r1.mono (by omega)) (r2.mono (by omega)) (by norm_num)
  obtain ⟨s1, w1⟩ := fpmulC_spec g (B := 8) (C := 4) (r3.mono (by omega)) (ha.c1.mono hBp) (by norm_num)
  refine ⟨⟨s0, s1⟩, ?_⟩
  ext
  · rw [QuadraticAlgebra.re_mul]
    show fpVal T p (fpmulC T _ _) = _
    rw [w0, v1, v2]
    simp only [f2Val]
    ring
  · rw [QuadraticAlgebra.im_mul]
    show fpVal T p (fpmulC T _ _) = _
    rw [w1, v3]
    simp only [f2Val]
    ring

/-- A product of numbers below `64 p²` and its reduction: below `5p/4` -/
theorem lt_quarter (g : Good T p) {c m q : ℕ} (hq : q < 2 ^ (64 * T.n)) (hm : m ≤ 64 * (p * p))
    (h : c * 2 ^ (64 * T.n) = m + q * p) : 4 * c < 5 * p := by
  have hroom := g.room
  have hp0 : 0 < p := by have := g.pos; omega
  generalize 2 ^ (64 * T.n) = R at *
  have h1 : q * p ≤ R * p := Nat.mul_le_mul_right _ hq.le
  have h2 : 256 * (p * p) < R * p := by
    calc 256 * (p * p) = 256 * p * p := by ring
      _ < R * p := Nat.mul_lt_mul_of_pos_right hroom hp0
  have h3 : 4 * c * R < 5 * p * R := by
    have e1 : 4 * c * R = 4 * (c * R) := by ring
    have e2 : 5 * p * R = 5 * (R * p) := by ring
    rw [e1, e2, h]
    omega
  exact Nat.lt_of_mul_lt_mul_right h3

theorem fpmulC_tight (g : Good T p) {a b : List Digit} (ha : Rng T (8 * p) a) (hb : Rng T (8 * p) b) :
    4 * val (fpmulC T a b) < 5 * p := by
  have hm := mul_bound g ha.lt hb.lt (by norm_num)
  obtain ⟨c, q, _, e2, l, hq, hv⟩ := fpmul_exact g ha.len hb.len hm
  rw [e2]
  refine lt_quarter g hq ?_ hv
  calc val a * val b ≤ (8 * p) * (8 * p) := Nat.mul_le_mul ha.lt.le hb.lt.le
    _ = 64 * (p * p) := by ring

theorem fp2sqrC_tight (g : Good T p) {a : F2} {B : ℕ} (ha : Rng2 T (B * p) a) (hB : B ≤ 4) :
    4 * val (fp2sqrC T a).c0 < 5 * p ∧ 4 * val (fp2sqrC T a).c1 < 5 * p := by
  have hBp : B * p ≤ 4 * p := Nat.mul_le_mul_right _ hB
  obtain ⟨r1, _, v1⟩ := mpAddfastC_spec g ha.c0 ha.c1 (by omega)
  obtain ⟨r2, v2⟩ := subP4_spec g ha.c0 ha.c1 (by omega) (by omega)
  obtain ⟨r3, _, v3⟩ := mpAddfastC_spec g ha.c0 ha.c0 (by omega)
  exact ⟨fpmulC_tight g (r1.mono (by omega)) (r2.mono (by omega)), fpmulC_tight g (r3.mono (by omega)) (ha.c1.mono (by omega))⟩

end

/-! ## Builds

What is needed of the routines of a build: on the arguments below they agree with the portable ones, except that the
product in the extension need only represent the same element and be below `2p`. -/

theorem digitsOf_length : ∀ (n : ℕ) (b : List UInt8), (digitsOf n b).length = n
  | 0, _ => rfl
  | n + 1, b => by rw [digitsOf, List.length_cons, digitsOf_length n]

theorem modify_last {α} (f : α → α) (d : α) : ∀ (x : List α) (n : ℕ), x.length = n + 1 →
    x.modify n f = x.take n ++ [f (x.getD n d)]
  | [a], 0, _ => rfl
  | a :: b :: x, 0, h => by simp at h
  | a :: x, n + 1, h => by
    rw [List.modify_succ_cons, modify_last f d x n (by simpa using h)]
    rfl

/-- `fprand` gives an array below `2p`. -/
theorem fprand_rng (g : Good T p) (b : List UInt8) : Rng T (2 * p) (fprand T b) := by
  obtain ⟨m, hm⟩ : ∃ m, T.n = m + 1 := ⟨T.n - 1, by have := g.n_pos; omega⟩
  have hlen := digitsOf_length T.n b
  have hr := g.rand
  have hp0 := g.pos
  rw [hm, Nat.add_sub_cancel] at hr
  unfold fprand
  dsimp only
  generalize digitsOf T.n b = el at *
  have hel : el.length = m + 1 := hlen.trans hm
  refine ⟨by rw [List.length_modify, hlen], ?_⟩
  have htk : (el.take m).length = m := by rw [List.length_take, hel]; omega
  have hlt := val_lt (el.take m)
  rw [htk] at hlt
  rw [hm, Nat.add_sub_cancel, modify_last _ 0 el m hel, val_append, htk, val, val, Nat.mul_zero, Nat.add_zero]
  have hd : (el.getD m 0 &&& ((-1 : Digit) >>> (T.nbits % 64))).toNat < 2 ^ (64 - T.nbits % 64) := by
    rw [BitVec.toNat_and]
    refine lt_of_le_of_lt Nat.and_le_right ?_
    rw [BitVec.toNat_ushiftRight, Nat.shiftRight_eq_div_pow]
    refine Nat.div_lt_of_lt_mul ?_
    rw [← pow_add, Nat.add_sub_of_le (Nat.mod_lt _ (by norm_num)).le]
    exact BitVec.isLt _
  have h1 := Nat.mul_le_mul_left (2 ^ (64 * m)) (Nat.succ_le_of_lt hd)
  rw [Nat.succ_eq_add_one, Nat.mul_add] at h1
  omega

/-- A build whose routines agree with the portable ones in range -/
class ArithOK (T : Tables) (p : ℕ) [Arith] : Prop where
  fpadd : ∀ {a b : List Digit}, a.length = T.n → b.length = T.n → fpadd T a b = fpaddC T a b
  fpsub : ∀ {a b : List Digit}, a.length = T.n → b.length = T.n → fpsub T a b = fpsubC T a b
  subP2 : ∀ {a b : List Digit}, a.length = T.n → b.length = T.n → subP2 T a b = subP2C T a b
  mpAddfast : ∀ {a b : List Digit}, a.length = T.n → b.length = T.n → mpAddfast a b = mpAddfastC a b
  fpmul : ∀ {a b : List Digit}, Rng T (120 * p) a → Rng T (120 * p) b → val a * val b < 2 ^ (64 * T.n) * p →
    fpmul T a b = fpmulC T a b
  fp2sqr : ∀ {a : F2}, Rng2 T (4 * p) a → fp2sqr T a = fp2sqrC T a
  fp2mul : ∀ {a b : F2}, Rng2 T (16 * p) a → Rng2 T (8 * p) b → Rng2 T (2 * p) (fp2mul T a b) ∧
    f2Val T p (fp2mul T a b) = f2Val T p a * f2Val T p b

/-- A build whose `fprand` stays in range -/
class RandOK (T : Tables) (p : ℕ) [Arith] : Prop where
  rand : ∀ b : List UInt8, b.length = 8 * T.n → Rng T (2 * p) (Arith.rand T b)

instance ArithOK.portable [Fact p.Prime] [g : Fact (Good T p)] : ArithOK T p where
  fpadd _ _ := rfl
  fpsub _ _ := rfl
  subP2 _ _ := rfl
  mpAddfast _ _ := rfl
  fpmul _ _ _ := rfl
  fp2sqr _ := rfl
  fp2mul ha hb := fp2mulC_spec g.out ha hb (by norm_num) (by norm_num) (by norm_num)

instance RandOK.portable [g : Fact (Good T p)] : RandOK T p where
  rand b _ := fprand_rng g.out b

section
variable [hp : Fact p.Prime] [Arith] [ok : ArithOK T p]

theorem fpadd_spec (g : Good T p) {a b : List Digit} {B C : ℕ} (ha : Rng T B a) (hb : Rng T C b) (h : B + C ≤ 4 * p + 1) :
    Rng T (2 * p) (fpadd T a b) ∧ fpVal T p (fpadd T a b) = fpVal T p a + fpVal T p b := by
  rw [ok.fpadd ha.len hb.len]
  exact fpaddC_spec g ha hb h

theorem fpsub_spec (g : Good T p) {a b : List Digit} (ha : Rng T (2 * p) a) (hb : Rng T (2 * p + 1) b) :
    Rng T (2 * p) (fpsub T a b) ∧ fpVal T p (fpsub T a b) = fpVal T p a - fpVal T p b := by
  rw [ok.fpsub ha.len hb.len]
  exact fpsubC_spec g ha hb

theorem subP2_spec (g : Good T p) {a b : List Digit} {B C : ℕ} (ha : Rng T B a) (hb : Rng T C b) (hC : C ≤ 2 * p + 1)
    (hB : B + 2 * p ≤ 256 * p) :
    Rng T (B + 2 * p) (subP2 T a b) ∧ fpVal T p (subP2 T a b) = fpVal T p a - fpVal T p b := by
  rw [ok.subP2 ha.len hb.len]
  exact subP2C_spec g ha hb hC hB

theorem mpAddfast_spec (g : Good T p) {a b : List Digit} {B C : ℕ} (ha : Rng T B a) (hb : Rng T C b)
    (h : B + C ≤ 256 * p) :
    Rng T (B + C) (mpAddfast a b) ∧ val (mpAddfast a b) = val a + val b ∧
      fpVal T p (mpAddfast a b) = fpVal T p a + fpVal T p b := by
  rw [ok.mpAddfast ha.len hb.len]
  exact mpAddfastC_spec g ha hb h

theorem fpmul_spec' (g : Good T p) {a b : List Digit} (ha : Rng T (120 * p) a) (hb : Rng T (120 * p) b)
    (h : val a * val b < 2 ^ (64 * T.n) * p) :
    Rng T (2 * p) (fpmul T a b) ∧ fpVal T p (fpmul T a b) = fpVal T p a * fpVal T p b := by
  rw [ok.fpmul ha hb h]
  exact fpmulC_spec' g ha.len hb.len h

theorem fpmul_spec (g : Good T p) {a b : List Digit} {B C : ℕ} (ha : Rng T (B * p) a) (hb : Rng T (C * p) b)
    (h : B * C ≤ 256) (hB : B ≤ 120 := by norm_num) (hC : C ≤ 120 := by norm_num) :
    Rng T (2 * p) (fpmul T a b) ∧ fpVal T p (fpmul T a b) = fpVal T p a * fpVal T p b :=
  fpmul_spec' g (ha.mono (Nat.mul_le_mul_right _ hB)) (hb.mono (Nat.mul_le_mul_right _ hC)) (mul_bound g ha.lt hb.lt h)

theorem fpsqr_spec (g : Good T p) {a : List Digit} {B : ℕ} (ha : Rng T (B * p) a) (h : B * B ≤ 256) :
    Rng T (2 * p) (fpsqr T a) ∧ fpVal T p (fpsqr T a) = fpVal T p a * fpVal T p a :=
  fpmul_spec g ha ha h (by nlinarith) (by nlinarith)

theorem fp2mul_spec (g : Good T p) {a b : F2} {B C : ℕ} (ha : Rng2 T (B * p) a) (hb : Rng2 T (C * p) b)
    (hB : B ≤ 16) (hC : C ≤ 8) :
    Rng2 T (2 * p) (fp2mul T a b) ∧ f2Val T p (fp2mul T a b) = f2Val T p a * f2Val T p b :=
  ok.fp2mul (ha.mono (Nat.mul_le_mul_right _ hB)) (hb.mono (Nat.mul_le_mul_right _ hC))

theorem fp2sqr_spec (g : Good T p) {a : F2} {B : ℕ} (ha : Rng2 T (B * p) a) (hB : B ≤ 4) :
    Rng2 T (2 * p) (fp2sqr T a) ∧ f2Val T p (fp2sqr T a) = f2Val T p a * f2Val T p a := by
  rw [ok.fp2sqr (ha.mono (Nat.mul_le_mul_right _ hB))]
  exact fp2sqrC_spec g ha hB

/-- The squares are below `5p/4`. -/
theorem fp2sqr_tight (g : Good T p) {a : F2} {B : ℕ} (ha : Rng2 T (B * p) a) (hB : B ≤ 4) :
    4 * val (fp2sqr T a).c0 < 5 * p ∧ 4 * val (fp2sqr T a).c1 < 5 * p := by
  rw [ok.fp2sqr (ha.mono (Nat.mul_le_mul_right _ hB))]
  exact fp2sqrC_tight g ha hB

theorem fp2add_spec (g : Good T p) {a b : F2} {B C : ℕ} (ha : Rng2 T B a) (hb : Rng2 T C b) (h : B + C ≤ 4 * p + 1) :
    Rng2 T (2 * p) (fp2add T a b) ∧ f2Val T p (fp2add T a b) = f2Val T p a + f2Val T p b := by
  obtain ⟨h0, v0⟩ := fpadd_spec g ha.c0 hb.c0 h
  obtain ⟨h1, v1⟩ := fpadd_spec g ha.c1 hb.c1 h
  exact ⟨⟨h0, h1⟩, QuadraticAlgebra.ext v0 v1⟩

theorem fp2sub_spec (g : Good T p) {a b : F2} (ha : Rng2 T (2 * p) a) (hb : Rng2 T (2 * p + 1) b) :
    Rng2 T (2 * p) (fp2sub T a b) ∧ f2Val T p (fp2sub T a b) = f2Val T p a - f2Val T p b := by
  obtain ⟨h0, v0⟩ := fpsub_spec g ha.c0 hb.c0
  obtain ⟨h1, v1⟩ := fpsub_spec g ha.c1 hb.c1
  exact ⟨⟨h0, h1⟩, QuadraticAlgebra.ext v0 v1⟩

omit [Arith] ok in
theorem fp2neg_spec (g : Good T p) {a : F2} (ha : Rng2 T (2 * p + 1) a) :
    Rng2 T (2 * p + 1) (fp2neg T a) ∧ f2Val T p (fp2neg T a) = - f2Val T p a := by
  obtain ⟨h0, v0⟩ := fpneg_spec g ha.c0
  obtain ⟨h1, v1⟩ := fpneg_spec g ha.c1
  exact ⟨⟨h0, h1⟩, QuadraticAlgebra.ext v0 v1⟩

omit [Arith] ok in
theorem fp2correction_spec (g : Good T p) {a : F2} (ha : Rng2 T (2 * p) a) :
    Rng2 T p (fp2correction T a) ∧ f2Val T p (fp2correction T a) = f2Val T p a := by
  obtain ⟨h0, v0⟩ := fpcorrection_spec g ha.c0
  obtain ⟨h1, v1⟩ := fpcorrection_spec g ha.c1
  exact ⟨⟨h0, h1⟩, QuadraticAlgebra.ext v0 v1⟩

theorem mp2add_spec (g : Good T p) {a b : F2} {B C : ℕ} (ha : Rng2 T B a) (hb : Rng2 T C b) (h : B + C ≤ 256 * p) :
    Rng2 T (B + C) (mp2add a b) ∧ f2Val T p (mp2add a b) = f2Val T p a + f2Val T p b := by
  obtain ⟨h0, _, v0⟩ := mpAddfast_spec g ha.c0 hb.c0 h
  obtain ⟨h1, _, v1⟩ := mpAddfast_spec g ha.c1 hb.c1 h
  exact ⟨⟨h0, h1⟩, QuadraticAlgebra.ext v0 v1⟩

theorem mp2subP2_spec (g : Good T p) {a b : F2} {B C : ℕ} (ha : Rng2 T B a) (hb : Rng2 T C b) (hC : C ≤ 2 * p + 1)
    (hB : B + 2 * p ≤ 256 * p) :
    Rng2 T (B + 2 * p) (mp2subP2 T a b) ∧ f2Val T p (mp2subP2 T a b) = f2Val T p a - f2Val T p b := by
  obtain ⟨h0, v0⟩ := subP2_spec g ha.c0 hb.c0 hC hB
  obtain ⟨h1, v1⟩ := subP2_spec g ha.c1 hb.c1 hC hB
  exact ⟨⟨h0, h1⟩, QuadraticAlgebra.ext v0 v1⟩

end

section
variable [hp3 : Prime3 p] [Arith] [ok : ArithOK T p]

omit [Arith] ok in
theorem fp2div2_spec (g : Good T p) {a : F2} {B : ℕ} (ha : Rng2 T B a) (hB : B ≤ 3 * p) :
    Rng2 T (2 * p) (fp2div2 T a) ∧ f2Val T p (fp2div2 T a) = f2Val T p a / 2 := by
  obtain ⟨h0, v0⟩ := fpdiv2_spec g ha.c0 hB
  obtain ⟨h1, v1⟩ := fpdiv2_spec g ha.c1 hB
  refine ⟨⟨h0, h1⟩, ?_⟩
  rw [eq_div_iff fp2_two_ne_zero]
  have h2 := two_ne g
  ext
  · rw [mul_comm, two_mul, QuadraticAlgebra.re_add]
    show fpVal T p (fpdiv2 T a.c0) + fpVal T p (fpdiv2 T a.c0) = fpVal T p a.c0
    rw [v0]
    field_simp
    ring
  · rw [mul_comm, two_mul, QuadraticAlgebra.im_add]
    show fpVal T p (fpdiv2 T a.c1) + fpVal T p (fpdiv2 T a.c1) = fpVal T p a.c1
    rw [v1]
    field_simp
    ring

/-- A chain on words computes the power. -/
theorem fpinvChain_spec (g : Good T p) {chain : ℕ × List Instr} {e : ℕ} (he : chainExp chain.1 chain.2 = some e)
    {a : List Digit} (ha : Rng T (2 * p) a) :
    Rng T (2 * p) (fpinvChain T chain a) ∧ fpVal T p (fpinvChain T chain a) = fpVal T p a ^ e := by
  have h1 := runChain_pow (fpVal T p a) he
  obtain ⟨y, hy, hr, hv⟩ := runChain_rel (R := fun v x => Rng T (2 * p) x ∧ fpVal T p x = v) (sqr' := fpsqr T)
    (mul' := fpmul T) (a' := a)
    (by
      rintro _ x ⟨hx, rfl⟩
      exact fpsqr_spec g hx (by norm_num))
    (by
      rintro _ _ x y ⟨hx, rfl⟩ ⟨hy, rfl⟩
      exact fpmul_spec g hx hy (by norm_num))
    ⟨ha, rfl⟩ h1
  rw [fpinvChain, hy]
  exact ⟨hr, hv⟩

/-- `fpinv_mont` computes the inverse, and zero from zero. -/
theorem fpinv_spec (g : Good T p) {chain : ℕ × List Instr} (he : chainExp chain.1 chain.2 = some ((p - 3) / 4))
    {a : List Digit} (ha : Rng T (2 * p) a) :
    Rng T (2 * p) (fpinv T chain a) ∧ fpVal T p (fpinv T chain a) = (fpVal T p a)⁻¹ := by
  obtain ⟨r1, v1⟩ := fpinvChain_spec g he ha
  obtain ⟨r2, v2⟩ := fpsqr_spec g r1 (by norm_num)
  obtain ⟨r3, v3⟩ := fpsqr_spec g r2 (by norm_num)
  obtain ⟨r4, v4⟩ := fpmul_spec g ha r3 (by norm_num)
  refine ⟨r4, ?_⟩
  rw [fpinv, v4, v3, v2, v1]
  generalize fpVal T p a = x
  by_cases hx : x = 0
  · rw [hx, zero_mul, inv_zero]
  · apply eq_inv_of_mul_eq_one_left
    have h4 := hp3.mod4
    have hpos := g.pos
    have := ZMod.pow_card_sub_one_eq_one hx
    rw [show p - 1 = 4 * ((p - 3) / 4) + 2 by omega] at this
    rw [← this]
    ring

/-- `fp2inv_mont` computes the inverse, and zero from zero. -/
theorem fp2inv_spec (g : Good T p) {chain : ℕ × List Instr} (he : chainExp chain.1 chain.2 = some ((p - 3) / 4))
    {a : F2} (ha : Rng2 T (2 * p + 1) a) :
    Rng2 T (2 * p) (fp2inv T chain a) ∧ f2Val T p (fp2inv T chain a) = (f2Val T p a)⁻¹ := by
  have ha0 := rng_le g ha.c0
  have ha1 := rng_le g ha.c1
  obtain ⟨r1, v1⟩ := fpsqr_spec g ha0 (by norm_num)
  obtain ⟨r2, v2⟩ := fpsqr_spec g ha1 (by norm_num)
  obtain ⟨r3, v3⟩ := fpadd_spec g r1 r2 (by omega)
  obtain ⟨r4, v4⟩ := fpinv_spec g he r3
  obtain ⟨r5, v5⟩ := fpneg_spec g ha.c1
  obtain ⟨r6, v6⟩ := fpmul_spec g ha0 r4 (by norm_num)
  obtain ⟨r7, v7⟩ := fpmul_spec g (rng_le g r5) r4 (by norm_num)
  refine ⟨⟨r6, r7⟩, ?_⟩
  have e0 : (f2Val T p (fp2inv T chain a)).re = fpVal T p a.c0 * (fpVal T p a.c0 * fpVal T p a.c0 + fpVal T p a.c1 * fpVal T p a.c1)⁻¹ := by
    rw [← v1, ← v2, ← v3, ← v4, ← v6]; rfl
  have e1 : (f2Val T p (fp2inv T chain a)).im = - fpVal T p a.c1 * (fpVal T p a.c0 * fpVal T p a.c0 + fpVal T p a.c1 * fpVal T p a.c1)⁻¹ := by
    rw [← v1, ← v2, ← v3, ← v4, ← v5, ← v7]; rfl
  generalize f2Val T p (fp2inv T chain a) = y at *
  have hx : f2Val T p a = ⟨fpVal T p a.c0, fpVal T p a.c1⟩ := rfl
  rw [hx]
  generalize fpVal T p a.c0 = u at *
  generalize fpVal T p a.c1 = w at *
  by_cases h0 : (⟨u, w⟩ : Fp2 p) = 0
  · rw [h0, inv_zero]
    have hu : u = 0 := congrArg QuadraticAlgebra.re h0
    have hw : w = 0 := congrArg QuadraticAlgebra.im h0
    rw [hu, hw] at e0 e1
    ext
    · rw [e0, zero_mul]; rfl
    · rw [e1, neg_zero, zero_mul]; rfl
  · have hN : u * u + w * w ≠ 0 := by
      intro hN
      by_cases hw : w = 0
      · apply h0
        rw [hw, mul_zero, add_zero] at hN
        rw [hw, mul_self_eq_zero.1 hN]
        rfl
      · apply neg_one_nonsquare p
        refine ⟨u / w, ?_⟩
        field_simp
        linear_combination -hN
    apply eq_inv_of_mul_eq_one_left
    ext
    · rw [QuadraticAlgebra.re_mul, e0, e1, QuadraticAlgebra.re_one]
      linear_combination mul_inv_cancel₀ hN
    · rw [QuadraticAlgebra.im_mul, e0, e1, QuadraticAlgebra.im_one]
      ring

theorem fp2div_spec (g : Good T p) {chain : ℕ × List Instr} (he : chainExp chain.1 chain.2 = some ((p - 3) / 4))
    {a b : F2} (ha : Rng2 T (4 * p) a) (hb : Rng2 T (2 * p + 1) b) :
    Rng2 T (2 * p) (fp2div T chain a b) ∧ f2Val T p (fp2div T chain a b) = f2Val T p a * (f2Val T p b)⁻¹ := by
  obtain ⟨r1, v1⟩ := fp2inv_spec g he hb
  obtain ⟨r2, v2⟩ := fp2mul_spec g ha r1 (by norm_num) (by norm_num)
  exact ⟨r2, by rw [fp2div, v2, v1]⟩

end

/-! ## The four parameter sets -/

/-- The tables compiled for a level -/
def tables : Level → Tables
  | .l434 => words434
  | .l503 => words503
  | .l610 => words610
  | .l751 => words751

theorem good (l : Level) : Good (tables l) l.p := by
  cases l <;> constructor <;> decide +kernel

instance goodFact (l : Level) : Fact (Good (tables l) l.p) := ⟨good l⟩

end Secuer.Word
