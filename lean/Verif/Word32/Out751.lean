import Verif.Word32.Wide

/-!
# Numbers up to `8 p` with 32-bit digits

`fprand` returns numbers below `5 p` for p751.  The right-hand side in `random_point` is still computed right, squares need not be.
-/

namespace Secuer.WCurve

open Secuer.Word Secuer.Field

variable {l : Level} [Arith] [ArithOK (tables l) l.p]

/-- `rhs` in `random_point` for `x` up to `5 p` -/
theorem rhsOf_wide {A x : F2} {A' u : l.F} (hA : V l 2 A A') (hx : V l 5 x u) : V l 2 (rhsOf l A x) (Curve.rhsOf A' u) := by
  have := pos l
  have h0 : V l 5 (fp2add (tables l) A x) (A' + u) := by
    obtain ⟨r0, e0⟩ := fpadd_wide (D := 5 * l.p) (good l) hA.rng.c0 hx.rng.c0 (by omega) (by omega) (by omega)
    obtain ⟨r1, e1⟩ := fpadd_wide (D := 5 * l.p) (good l) hA.rng.c1 hx.rng.c1 (by omega) (by omega) (by omega)
    exact ⟨⟨r0, r1⟩, by rw [← hx.val, ← hA.val]; exact QuadraticAlgebra.ext e0 e1⟩
  have h1 := h0.mul hx
  have h2 : V l 2 ⟨fpadd (tables l) (fp2mul (tables l) (fp2add (tables l) A x) x).c0 (tables l).one,
      (fp2mul (tables l) (fp2add (tables l) A x) x).c1⟩ ((A' + u) * u + 1) := by
    obtain ⟨r, e⟩ := fpadd_spec (good l) h1.rng.c0 one_rng.1 (by omega)
    refine ⟨⟨r, h1.rng.c1⟩, ?_⟩
    have hv := h1.val
    have e0 : fpVal (tables l) l.p (fp2mul (tables l) (fp2add (tables l) A x) x).c0 = ((A' + u) * u).re := by rw [← hv]; rfl
    have e1 : fpVal (tables l) l.p (fp2mul (tables l) (fp2add (tables l) A x) x).c1 = ((A' + u) * u).im := by rw [← hv]; rfl
    refine QuadraticAlgebra.ext (e.trans (by rw [e0, one_rng.2]; rfl)) (e1.trans ?_)
    show _ = ((A' + u) * u).im + 0
    rw [add_zero]
  exact h2.mul hx

end Secuer.WCurve

namespace Secuer.Word32

open Secuer.Field
open Secuer.Word (Rng Rng2)

variable {l : Level}

/-- `fpmul_mont` for products up to `R² - R p` -/
theorem fpmul_wide {a b : List Word.Digit} (ha : a.length = (Word.tables l).n) (hb : b.length = (Word.tables l).n)
    (h : Word.val a * Word.val b + 2 ^ (64 * (Word.tables l).n) * l.p ≤
      2 ^ (64 * (Word.tables l).n) * 2 ^ (64 * (Word.tables l).n)) :
    ∃ c : List Word.Digit, fpmulC (tables l) (split a) (split b) = split c ∧
      Word.fpVal (Word.tables l) l.p c = Word.fpVal (Word.tables l) l.p a * Word.fpVal (Word.tables l) l.p b := by
  have g := Word.good l
  obtain ⟨m, e1, l1, v1⟩ := Word.mpMul_spec g.n_pos (by have := g.n_lt; omega) ha hb
  rw [← v1] at h
  have e2 := rdcMont_split_wide (l := l) l1 h
  obtain ⟨c, q, e3, lc, hq, v⟩ := Word.rdcMont_exact_wide g l1 h
  refine ⟨c, ?_, ?_⟩
  · have : fpmul? (tables l) (split a) (split b) = some (split c) := by
      rw [fpmul?, tables_n, mpMul_split g.n_pos g.n_lt ha hb, e1]
      show rdcMont (tables l) (split m) = _
      rw [e2, e3]
      rfl
    rw [fpmulC, this]
    rfl
  · have w := Word.exact_val g v
    rw [Word.fpVal, w, v1, Word.fpVal, Word.fpVal]
    push_cast
    ring

theorem subP4_wrap (g : Word.Good (Word.tables l) l.p) {a b : List Word.Digit} (ha : a.length = (Word.tables l).n)
    (hb : b.length = (Word.tables l).n) (h1 : Word.val a + 4 * l.p < Word.val b) :
    (Word.subP4 (Word.tables l) a b).length = (Word.tables l).n ∧
      Word.val (Word.subP4 (Word.tables l) a b) + Word.val b = Word.val a + 4 * l.p + 2 ^ (64 * (Word.tables l).n) := by
  obtain ⟨l1, _, h⟩ := Word.sub0 ha hb
  obtain ⟨l', h'⟩ := Word.add0 l1 g.len_x4
  refine ⟨l', ?_⟩
  have := Word.val_lt b
  rw [hb] at this
  rw [Word.subP4, h', g.val_x4]
  rcases h with ⟨h3, _, h4⟩ | ⟨h3, _, h4⟩
  · omega
  · rw [h4, Nat.mod_eq_of_lt (by omega)]; omega

/-- `fp2sqr_mont` for components up to `8 p`: the real part is too large by the sum of the components if the imaginary part exceeds
the real part by more than `4 p`. -/
theorem fp2sqr_wide {a : Word.F2} (ha : Rng2 (Word.tables l) (8 * l.p) a) :
    letI := arith l
    Word.f2Val (Word.tables l) l.p (Word.fp2sqr (Word.tables l) a) = Word.f2Val (Word.tables l) l.p a ^ 2 +
      if Word.val a.c1 ≤ Word.val a.c0 + 4 * l.p then 0
      else ⟨Word.fpVal (Word.tables l) l.p a.c0 + Word.fpVal (Word.tables l) l.p a.c1, 0⟩ := by
  letI := arith l
  have g := Word.good l
  have hroom := g.room
  have h0 := ha.c0.lt
  have h1 := ha.c1.lt
  obtain ⟨r1, v1⟩ := rng_add ha.c0 ha.c1 (by omega)
  obtain ⟨r3, v3⟩ := rng_add ha.c0 ha.c0 (by omega)
  have b1 := Word.mul_bound g (B := 16) (C := 8) (r3.mono (by omega)).lt ha.c1.lt (by norm_num)
  obtain ⟨s1, w1⟩ := Word.fpmulC_spec' g r3.len ha.c1.len b1
  have hs : ∃ s, fpmulC (tables l) (split (Word.mpAddfastC a.c0 a.c1)) (split (Word.subP4 (Word.tables l) a.c0 a.c1)) = split s ∧
      Word.fpVal (Word.tables l) l.p s = (Word.fpVal (Word.tables l) l.p a.c0 + Word.fpVal (Word.tables l) l.p a.c1) *
        (Word.fpVal (Word.tables l) l.p a.c0 - Word.fpVal (Word.tables l) l.p a.c1 +
          if Word.val a.c1 ≤ Word.val a.c0 + 4 * l.p then 0 else 1) := by
    have hv1 : Word.fpVal (Word.tables l) l.p (Word.mpAddfastC a.c0 a.c1) =
        Word.fpVal (Word.tables l) l.p a.c0 + Word.fpVal (Word.tables l) l.p a.c1 := by
      rw [Word.fpVal, v1, Nat.cast_add, add_mul]; rfl
    have hbig : 2 ^ (64 * (Word.tables l).n) * l.p * 17 ≤ 2 ^ (64 * (Word.tables l).n) * 2 ^ (64 * (Word.tables l).n) := by
      rw [Nat.mul_assoc]; exact Nat.mul_le_mul_left _ (by omega)
    have hlen : (Word.subP4 (Word.tables l) a.c0 a.c1).length = (Word.tables l).n := by
      obtain ⟨k1, _, _⟩ := Word.sub0 ha.c0.len ha.c1.len
      exact (Word.add0 k1 g.len_x4).1
    have hlt := Word.val_lt (Word.subP4 (Word.tables l) a.c0 a.c1)
    rw [hlen] at hlt
    have hprod : Word.val (Word.mpAddfastC a.c0 a.c1) * Word.val (Word.subP4 (Word.tables l) a.c0 a.c1) ≤
        16 * l.p * 2 ^ (64 * (Word.tables l).n) := Nat.mul_le_mul (by omega) hlt.le
    have hcm : 16 * l.p * 2 ^ (64 * (Word.tables l).n) = 2 ^ (64 * (Word.tables l).n) * l.p * 16 := by ring
    obtain ⟨s, e, v⟩ := fpmul_wide (l := l) r1.len hlen (by omega)
    refine ⟨s, e, ?_⟩
    rw [v, hv1]
    congr 1
    have hR := Word.R_ne_zero (T := Word.tables l) g
    by_cases hc : Word.val a.c1 ≤ Word.val a.c0 + 4 * l.p
    · rw [if_pos hc, add_zero]
      obtain ⟨_, k⟩ := Word.subP4_val g ha.c0.len ha.c1.len hc (by omega)
      rw [Word.fpVal, k, Nat.cast_sub hc, Word.fpVal, Word.fpVal]
      push_cast
      rw [ZMod.natCast_self]
      ring
    · rw [if_neg hc]
      obtain ⟨_, k⟩ := subP4_wrap g ha.c0.len ha.c1.len (by omega)
      have := congrArg (Nat.cast : ℕ → ZMod l.p) k
      push_cast at this
      rw [ZMod.natCast_self] at this
      have k2 : (Word.val (Word.subP4 (Word.tables l) a.c0 a.c1) : ZMod l.p) =
          Word.val a.c0 - Word.val a.c1 + 2 ^ (64 * (Word.tables l).n) := by linear_combination this
      rw [Word.fpVal, k2, Word.fpVal, Word.fpVal, add_mul, mul_inv_cancel₀ hR]
      ring
  obtain ⟨s, e, v⟩ := hs
  have hsq : Word.fp2sqr (Word.tables l) a = ⟨s, Word.fpmulC (Word.tables l) (Word.mpAddfastC a.c0 a.c0) a.c1⟩ := by
    show join2 (fp2sqrC (tables l) (split2 a)) = _
    unfold fp2sqrC split2
    dsimp only
    rw [mpAddfastC_split ha.c0.len ha.c1.len, subP4_split ha.c0.len ha.c1.len, mpAddfastC_split ha.c0.len ha.c0.len,
      fpmulC_split r3.len ha.c1.len b1, e]
    exact join2_split2 ⟨s, Word.fpmulC (Word.tables l) (Word.mpAddfastC a.c0 a.c0) a.c1⟩
  rw [hsq]
  have hv3 : Word.fpVal (Word.tables l) l.p (Word.mpAddfastC a.c0 a.c0) =
      2 * Word.fpVal (Word.tables l) l.p a.c0 := by
    rw [Word.fpVal, v3, Nat.cast_add, add_mul, two_mul]; rfl
  unfold Word.f2Val
  rw [v, w1, hv3, pow_two]
  by_cases hc : Word.val a.c1 ≤ Word.val a.c0 + 4 * l.p
  · rw [if_pos hc, if_pos hc]
    refine QuadraticAlgebra.ext ?_ ?_
    · simp only [QuadraticAlgebra.re_mul, QuadraticAlgebra.re_add, QuadraticAlgebra.re_zero]
      ring
    · simp only [QuadraticAlgebra.im_mul, QuadraticAlgebra.im_add, QuadraticAlgebra.im_zero]
      ring
  · rw [if_neg hc, if_neg hc]
    refine QuadraticAlgebra.ext ?_ ?_
    · simp only [QuadraticAlgebra.re_mul, QuadraticAlgebra.re_add]
      ring
    · simp only [QuadraticAlgebra.im_mul, QuadraticAlgebra.im_add]
      ring

end Secuer.Word32
