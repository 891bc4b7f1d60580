import Verif.Word32.Build

/-!
# The multiplication on numbers out of range

`fp2mul_mont` on arrays that hold more than the functions are made for, as `fprand` returns them in the builds with 32-bit
digits for p610 and p751.
-/

namespace Secuer.Word

variable {T : Tables} {p : ℕ}

/-- `mp_subaddfast` if one addition of `p R` does not make up for the difference -/
theorem mpSubaddfast_over (g : Good T p) {a b : List Digit} (ha : a.length = 2 * T.n) (hb : b.length = 2 * T.n)
    (h : val a + 2 ^ (64 * T.n) * p < val b) :
    (mpSubaddfast T a b).length = 2 * T.n ∧
      val (mpSubaddfast T a b) = 2 ^ (64 * T.n) * 2 ^ (64 * T.n) + (val a + 2 ^ (64 * T.n) * p) - val b := by
  obtain ⟨l1, hb1, h1⟩ := sub0 ha hb
  have ltk : ((subLoop 0 a b).2.take T.n).length = T.n := by rw [List.length_take, l1]; omega
  have ldr : ((subLoop 0 a b).2.drop T.n).length = T.n := by rw [List.length_drop, l1]; omega
  obtain ⟨l2, h2⟩ := add0 ldr ((masked_length (maskOf (subLoop 0 a b).1) T.p).trans g.len_p)
  have hsplit := val_take_drop (x := (subLoop 0 a b).2) (n := T.n) (by rw [l1]; omega)
  have hlt := val_lt ((subLoop 0 a b).2.take T.n)
  rw [ltk] at hlt
  refine ⟨by
    rw [mpSubaddfast, mpSub, mpAddfastC, mpAdd, List.length_append, ltk, l2]; omega, ?_⟩
  rw [mpSubaddfast, mpSub, mpAddfastC, mpAdd, val_append, ltk, h2, val_masked hb1, g.val_p]
  have e2 : (2 : ℕ) ^ (64 * (2 * T.n)) = 2 ^ (64 * T.n) * 2 ^ (64 * T.n) := by rw [← pow_add]; congr 1; ring
  rcases h1 with ⟨h3, h5, h4⟩ | ⟨h3, h5, h4⟩
  · have := Nat.zero_le (2 ^ (64 * T.n) * p)
    omega
  · rw [h5, Nat.one_mul]
    rw [h4, e2] at hsplit
    generalize val ((subLoop 0 a b).2.take T.n) = lo at *
    generalize val ((subLoop 0 a b).2.drop T.n) = hi at *
    have hR : 0 < 2 ^ (64 * T.n) := by positivity
    have hbb := val_lt b
    rw [hb, e2] at hbb
    generalize 2 ^ (64 * T.n) = R at *
    have e3 : R * (hi + p) = R * hi + R * p := by ring
    have hh : hi + p < R := by
      have : R * (hi + p) < R * R := by omega
      exact Nat.lt_of_mul_lt_mul_left this
    rw [Nat.mod_eq_of_lt hh, e3]
    omega

/-- The number `mp_subaddfast` passes on to the reduction -/
def subadd (R p x y : ℕ) : ℕ := if y ≤ x then x - y else if y ≤ x + R * p then x + R * p - y else R * R + (x + R * p) - y

theorem mpSubaddfast_all (g : Good T p) {a b : List Digit} (ha : a.length = 2 * T.n) (hb : b.length = 2 * T.n) :
    (mpSubaddfast T a b).length = 2 * T.n ∧ val (mpSubaddfast T a b) = subadd (2 ^ (64 * T.n)) p (val a) (val b) := by
  unfold subadd
  by_cases h : val b ≤ val a + 2 ^ (64 * T.n) * p
  · obtain ⟨h1, h2⟩ := mpSubaddfast_val g ha hb h
    refine ⟨h1, h2.trans ?_⟩
    rw [if_pos h]
  · obtain ⟨h1, h2⟩ := mpSubaddfast_over g ha hb (by omega)
    refine ⟨h1, h2.trans ?_⟩
    rw [if_neg h, if_neg (by omega)]

/-- The conditions under which `fp2mul_mont` is computed below as numbers -/
structure WideOK (T : Tables) (p : ℕ) (a b : F2) : Prop where
  a0 : a.c0.length = T.n
  a1 : a.c1.length = T.n
  b0 : b.c0.length = T.n
  b1 : b.c1.length = T.n
  sa : val a.c0 + val a.c1 < 2 ^ (64 * T.n)
  sb : val b.c0 + val b.c1 < 2 ^ (64 * T.n)
  re : subadd (2 ^ (64 * T.n)) p (val a.c0 * val b.c0) (val a.c1 * val b.c1) + 2 ^ (64 * T.n) * p ≤
    2 ^ (64 * T.n) * 2 ^ (64 * T.n)
  im : val a.c0 * val b.c1 + val a.c1 * val b.c0 + 2 ^ (64 * T.n) * p ≤ 2 ^ (64 * T.n) * 2 ^ (64 * T.n)

end Secuer.Word

namespace Secuer.Word32

open Secuer.Field
open Secuer.Word (subadd WideOK)

variable {l : Level}

theorem rdcMont_split_wide {m : List Word.Digit} (hm : m.length = 2 * (Word.tables l).n)
    (hlt : Word.val m + 2 ^ (64 * (Word.tables l).n) * l.p ≤ 2 ^ (64 * (Word.tables l).n) * 2 ^ (64 * (Word.tables l).n)) :
    rdcMont (tables l) (split m) = (Word.rdcMont (Word.tables l) m).map split := by
  obtain ⟨c, q, e, lc, hq, v⟩ := Word.rdcMont_exact_wide (Word.good l) hm hlt
  obtain ⟨c', q', e', lc', hq', v'⟩ := rdcMont_exact_wide (good l) (ma := split m) (by rw [split_length, hm, tables_n])
    (by rw [val_split, tables_n, pow_eq]; exact hlt)
  rw [tables_n, pow_eq] at hq' v'
  rw [val_split] at v'
  have hodd := (Word.good l).odd
  have hco : Nat.Coprime (2 ^ (64 * (Word.tables l).n)) l.p :=
    Nat.Coprime.pow_left _ (Nat.coprime_two_left.2 (Nat.odd_iff.2 hodd))
  have hs : c' = split c := split_eq (by rw [lc', lc, tables_n]) (exact_unique hco hq' hq v' v)
  rw [e, e', hs]
  rfl

/-- `fp2mul_mont` with 32-bit digits, as numbers -/
theorem fp2mul_wide {a b : Word.F2} (h : WideOK (Word.tables l) l.p a b) :
    ∃ c : Word.F2, fp2mulC (tables l) (split2 a) (split2 b) = split2 c ∧ c.c0.length = (Word.tables l).n ∧
      c.c1.length = (Word.tables l).n ∧ ∃ q0 q1, q0 < 2 ^ (64 * (Word.tables l).n) ∧ q1 < 2 ^ (64 * (Word.tables l).n) ∧
        Word.val c.c0 * 2 ^ (64 * (Word.tables l).n) =
          subadd (2 ^ (64 * (Word.tables l).n)) l.p (Word.val a.c0 * Word.val b.c0) (Word.val a.c1 * Word.val b.c1) + q0 * l.p ∧
        Word.val c.c1 * 2 ^ (64 * (Word.tables l).n) =
          Word.val a.c0 * Word.val b.c1 + Word.val a.c1 * Word.val b.c0 + q1 * l.p := by
  have g := Word.good l
  have hn := g.n_pos
  have hn' : (Word.tables l).n < 2 ^ 32 := by have := g.n_lt; omega
  obtain ⟨r1, v1⟩ := Word.add0_exact h.a0 h.a1 h.sa
  obtain ⟨r2, v2⟩ := Word.add0_exact h.b0 h.b1 h.sb
  change (Word.mpAddfastC a.c0 a.c1).length = _ at r1
  change (Word.mpAddfastC b.c0 b.c1).length = _ at r2
  change Word.val (Word.mpAddfastC a.c0 a.c1) = _ at v1
  change Word.val (Word.mpAddfastC b.c0 b.c1) = _ at v2
  obtain ⟨m1, e1, l1, w1⟩ := Word.mpMul_spec hn hn' h.a0 h.b0
  obtain ⟨m2, e2, l2, w2⟩ := Word.mpMul_spec hn hn' h.a1 h.b1
  obtain ⟨m3, e3, l3, w3⟩ := Word.mpMul_spec hn hn' r1 r2
  have s1 := mpMul_split hn g.n_lt h.a0 h.b0
  have s2 := mpMul_split hn g.n_lt h.a1 h.b1
  have s3 := mpMul_split hn g.n_lt r1 r2
  rw [v1, v2] at w3
  have hexp : (Word.val a.c0 + Word.val a.c1) * (Word.val b.c0 + Word.val b.c1) = Word.val a.c0 * Word.val b.c0 +
    Word.val a.c1 * Word.val b.c1 + (Word.val a.c0 * Word.val b.c1 + Word.val a.c1 * Word.val b.c0) := by ring
  obtain ⟨l4, w4⟩ := Word.mpDblsubfast_val l1 l2 l3 (by omega)
  obtain ⟨l5, w5⟩ := Word.mpSubaddfast_all g l1 l2
  have w4' : Word.val (Word.mpDblsubfast m1 m2 m3) = Word.val a.c0 * Word.val b.c1 + Word.val a.c1 * Word.val b.c0 := by
    rw [w4, w3, w1, w2]; omega
  rw [w1, w2] at w5
  have im := h.im
  have re := h.re
  rw [← w4'] at im
  rw [← w5] at re
  have f1 := rdcMont_split_wide (l := l) l4 im
  have f0 := rdcMont_split_wide (l := l) l5 re
  obtain ⟨c1, q1, k1, lc1, hq1, u1⟩ := Word.rdcMont_exact_wide g l4 im
  obtain ⟨c0, q0, k0, lc0, hq0, u0⟩ := Word.rdcMont_exact_wide g l5 re
  rw [k1] at f1
  rw [k0] at f0
  rw [e1] at s1
  rw [e2] at s2
  rw [e3] at s3
  refine ⟨⟨c0, c1⟩, ?_, lc0, lc1, q0, q1, hq0, hq1, by rw [u0, w5], by rw [u1, w4']⟩
  simp only [fp2mulC, fp2mul?, split2, tables_n, mpAddfastC_split h.a0 h.a1, mpAddfastC_split h.b0 h.b1,
    s1, s2, s3, Option.map_some, Option.bind_eq_bind, Option.bind_some, mpDblsubfast_split l1 l2 l3,
    mpSubaddfast_split l1 l2, f1, f0, Option.getD_some]

/-- The values: the real part is too large by one if `mp_subaddfast` wraps around. -/
theorem fp2mul_wide_val {a b : Word.F2} (h : WideOK (Word.tables l) l.p a b) :
    letI := arith l
    (Word.fp2mul (Word.tables l) a b).c0.length = (Word.tables l).n ∧
    (Word.fp2mul (Word.tables l) a b).c1.length = (Word.tables l).n ∧
    (∃ q0, q0 < 2 ^ (64 * (Word.tables l).n) ∧ Word.val (Word.fp2mul (Word.tables l) a b).c0 * 2 ^ (64 * (Word.tables l).n) =
      subadd (2 ^ (64 * (Word.tables l).n)) l.p (Word.val a.c0 * Word.val b.c0) (Word.val a.c1 * Word.val b.c1) + q0 * l.p) ∧
    (∃ q1, q1 < 2 ^ (64 * (Word.tables l).n) ∧ Word.val (Word.fp2mul (Word.tables l) a b).c1 * 2 ^ (64 * (Word.tables l).n) =
      Word.val a.c0 * Word.val b.c1 + Word.val a.c1 * Word.val b.c0 + q1 * l.p) ∧
    Word.f2Val (Word.tables l) l.p (Word.fp2mul (Word.tables l) a b) =
      Word.f2Val (Word.tables l) l.p a * Word.f2Val (Word.tables l) l.p b +
        if Word.val a.c1 * Word.val b.c1 ≤ Word.val a.c0 * Word.val b.c0 + 2 ^ (64 * (Word.tables l).n) * l.p then 0 else 1 := by
  letI := arith l
  obtain ⟨c, hc, l0, l1, q0, q1, hq0, hq1, e0, e1⟩ := fp2mul_wide h
  have e : Word.fp2mul (Word.tables l) a b = c := by
    show join2 (fp2mulC (tables l) (split2 a) (split2 b)) = c
    rw [hc, join2_split2]
  rw [e]
  refine ⟨l0, l1, ⟨q0, hq0, e0⟩, ⟨q1, hq1, e1⟩, ?_⟩
  have g := Word.good l
  have v0 := Word.exact_val g e0
  have v1 := Word.exact_val g e1
  have hR := Word.R_ne_zero (T := Word.tables l) g
  have hs : ((subadd (2 ^ (64 * (Word.tables l).n)) l.p (Word.val a.c0 * Word.val b.c0) (Word.val a.c1 * Word.val b.c1) : ℕ) :
      ZMod l.p) = Word.val a.c0 * Word.val b.c0 - Word.val a.c1 * Word.val b.c1 +
        (if Word.val a.c1 * Word.val b.c1 ≤ Word.val a.c0 * Word.val b.c0 + 2 ^ (64 * (Word.tables l).n) * l.p then 0 else 1) *
          ((2 : ZMod l.p) ^ (64 * (Word.tables l).n) * 2 ^ (64 * (Word.tables l).n)) := by
    unfold subadd
    by_cases h1 : Word.val a.c1 * Word.val b.c1 ≤ Word.val a.c0 * Word.val b.c0
    · rw [if_pos h1, if_pos (by omega), Nat.cast_sub h1]
      push_cast
      ring
    · rw [if_neg h1]
      by_cases h2 : Word.val a.c1 * Word.val b.c1 ≤ Word.val a.c0 * Word.val b.c0 + 2 ^ (64 * (Word.tables l).n) * l.p
      · rw [if_pos h2, if_pos h2, Nat.cast_sub h2]
        push_cast
        rw [ZMod.natCast_self]
        ring
      · rw [if_neg h2, if_neg h2]
        have h3 := h.sa
        have h4 := h.sb
        have h5 : Word.val a.c1 * Word.val b.c1 ≤ 2 ^ (64 * (Word.tables l).n) * 2 ^ (64 * (Word.tables l).n) :=
          Nat.mul_le_mul (by omega) (by omega)
        rw [Nat.cast_sub (by omega)]
        push_cast
        rw [ZMod.natCast_self]
        ring
  have hone : ((2 : ZMod l.p) ^ (64 * (Word.tables l).n)) * ((2 : ZMod l.p) ^ (64 * (Word.tables l).n))⁻¹ = 1 := mul_inv_cancel₀ hR
  unfold Word.f2Val Word.fpVal
  rw [v0, v1, hs]
  push_cast
  generalize ((2 : ZMod l.p) ^ (64 * (Word.tables l).n)) = R at hone ⊢
  generalize R⁻¹ = r at hone ⊢
  have hw : ∀ w : ZMod l.p, w * (R * R) * r * r = w := fun w => by linear_combination (w * R * r + w) * hone
  by_cases h2 : Word.val a.c1 * Word.val b.c1 ≤ Word.val a.c0 * Word.val b.c0 + 2 ^ (64 * (Word.tables l).n) * l.p
  · rw [if_pos h2, if_pos h2]
    refine QuadraticAlgebra.ext ?_ ?_
    · simp only [QuadraticAlgebra.re_mul, QuadraticAlgebra.re_add, QuadraticAlgebra.re_zero]
      ring
    · simp only [QuadraticAlgebra.im_mul, QuadraticAlgebra.im_add, QuadraticAlgebra.im_zero]
      ring
  · rw [if_neg h2, if_neg h2]
    refine QuadraticAlgebra.ext ?_ ?_
    · simp only [QuadraticAlgebra.re_mul, QuadraticAlgebra.re_add, QuadraticAlgebra.re_one]
      linear_combination hw 1
    · simp only [QuadraticAlgebra.im_mul, QuadraticAlgebra.im_add, QuadraticAlgebra.im_one]
      ring

end Secuer.Word32
