import Verif.Field.Prime
import Verif.Curve.Tables
import Mathlib.Algebra.QuadraticAlgebra.Basic
import Mathlib.NumberTheory.LegendreSymbol.Basic
import Mathlib.NumberTheory.SumTwoSquares

/-!
# The field `GF(p²)` and the square root

The elements of the field are Mathlib's `QuadraticAlgebra (ZMod p) (-1) 0`, that is pairs `re + im * i`
with `i² = -1`. The square root routine `fp2sqrt` is modelled on field elements here.
-/

namespace Secuer.Field

open Secuer.Curve

/-- `GF(p²)` -/
abbrev Fp2 (p : ℕ) : Type := QuadraticAlgebra (ZMod p) (-1) 0

/-- `p` is a prime with `-1` not a square modulo `p`. -/
class Prime3 (p : ℕ) : Prop where
  prime : p.Prime
  mod4 : p % 4 = 3

instance (p : ℕ) [h : Prime3 p] : Fact p.Prime := ⟨h.prime⟩

theorem neg_one_nonsquare (p : ℕ) [h : Prime3 p] : ¬ IsSquare (-1 : ZMod p) := by
  rw [ZMod.exists_sq_eq_neg_one_iff]
  exact not_not.2 h.mod4

instance (p : ℕ) [h : Prime3 p] : Fact (∀ r : ZMod p, r ^ 2 ≠ -1 + 0 * r) :=
  ⟨fun r hr => neg_one_nonsquare p ⟨r, by rw [← sq, hr]; ring⟩⟩

section

variable {p : ℕ} [Prime3 p]

theorem two_ne_zero' : (2 : ZMod p) ≠ 0 := by
  intro h
  apply neg_one_nonsquare p
  exact ⟨1, by linear_combination -h⟩

theorem fp2_two_ne_zero : (2 : Fp2 p) ≠ 0 := by
  intro h
  have := congrArg QuadraticAlgebra.re h
  simp only [QuadraticAlgebra.re_ofNat, QuadraticAlgebra.re_zero] at this
  exact two_ne_zero' this

theorem fp2_neg_one : IsSquare (-1 : Fp2 p) :=
  ⟨⟨0, 1⟩, by ext <;> simp [QuadraticAlgebra.re_one, QuadraticAlgebra.im_one]⟩

noncomputable instance : Fintype (Fp2 p) := Fintype.ofEquiv _ (QuadraticAlgebra.equivProd (-1 : ZMod p) 0).symm

theorem card_fp2 : Fintype.card (Fp2 p) = p ^ 2 := by
  rw [Fintype.card_congr (QuadraticAlgebra.equivProd (-1 : ZMod p) 0), Fintype.card_prod, ZMod.card, sq]

end

/-! ### The square root -/

section

variable {p : ℕ}

/-- `n` squarings (`poik.c:148-150`, `poik.c:178-180`) -/
def sqrs (n : ℕ) (a : ZMod p) : ZMod p := (fun t => t * t)^[n] a
/-- `n` cubings (`poik.c:151-154`, `poik.c:181-184`) -/
def cubes (n : ℕ) (a : ZMod p) : ZMod p := (fun t => t * (t * t))^[n] a

theorem sqrs_eq (n : ℕ) (a : ZMod p) : sqrs n a = a ^ 2 ^ n := by
  unfold sqrs
  induction n generalizing a with
  | zero => simp
  | succ n ih => rw [Function.iterate_succ_apply, ih, ← pow_two, ← pow_mul, ← pow_succ']

theorem cubes_eq (n : ℕ) (a : ZMod p) : cubes n a = a ^ 3 ^ n := by
  unfold cubes
  induction n generalizing a with
  | zero => simp
  | succ n ih =>
    rw [Function.iterate_succ_apply, ih, show a * (a * a) = a ^ 3 by ring, ← pow_mul, ← pow_succ']

variable [hp : Prime3 p]

/-- `fp2sqrt` (`poik.c:139-222`): the `y` it computes. `e2`, `e3` are `OALICE_BITS`, `OBOB_EXPON`; `chain` is
`fpinv_chain_mont` (`fpx.c:361-777`). -/
def sqrtF (e2 e3 : ℕ) (chain : ZMod p → ZMod p) (x : Fp2 p) : Fp2 p :=
  let a := x.re
  let b := x.im
  if b = 0 then
    let t1 := cubes e3 (sqrs (e2 - 2) a)
    let t0 := t1 * t1
    if t0 = a then ⟨t1, 0⟩ else ⟨0, t1⟩
  else
    let t0 := a * a
    let t1 := b * b
    let t0 := t0 + t1
    let t1 := cubes e3 (sqrs (e2 - 2) t0)
    let v := a + t1
    let v := v / 2
    let t2 := chain v
    let t1 := v * t2
    let t2 := t2 * b
    let t2 := t2 / 2
    let w := t1 * t1
    if v = w then ⟨t1, t2⟩ else ⟨t2, -t1⟩

theorem pow_half (a : ZMod p) (ha : a ≠ 0) : a ^ ((p - 1) / 2) = 1 ∨ a ^ ((p - 1) / 2) = -1 := by
  have h4 := hp.mod4
  have : a ^ ((p - 1) / 2) * a ^ ((p - 1) / 2) = 1 := by
    rw [← pow_add, show (p - 1) / 2 + (p - 1) / 2 = p - 1 by omega]
    exact ZMod.pow_card_sub_one_eq_one ha
  exact mul_self_eq_one_iff.1 this

theorem quarter_sq (a : ZMod p) : a ^ ((p + 1) / 4) * a ^ ((p + 1) / 4) = a ∨
    a ^ ((p + 1) / 4) * a ^ ((p + 1) / 4) = -a := by
  have h4 := hp.mod4
  by_cases ha : a = 0
  · subst ha; left
    rw [zero_pow (by omega), mul_zero]
  rw [← pow_add, show (p + 1) / 4 + (p + 1) / 4 = (p - 1) / 2 + 1 by omega, pow_succ]
  rcases pow_half a ha with h | h
  · left; rw [h, one_mul]
  · right; rw [h]; ring

theorem quarter_sq_of_sq (s : ZMod p) :
    (s * s) ^ ((p + 1) / 4) * (s * s) ^ ((p + 1) / 4) = s * s := by
  have h4 := hp.mod4
  by_cases ha : s = 0
  · subst ha; rw [mul_zero, zero_pow (by omega), mul_zero]
  rw [← pow_add, show (p + 1) / 4 + (p + 1) / 4 = (p - 1) / 2 + 1 by omega, pow_succ, ← sq s, ← pow_mul,
    show 2 * ((p - 1) / 2) = p - 1 by omega, ZMod.pow_card_sub_one_eq_one ha, one_mul]

/-- `fp2sqrt` finds a square root of every square. -/
theorem sqrtF_ok {e2 e3 : ℕ} (he : p + 1 = 2 ^ e2 * 3 ^ e3) (h2 : 2 ≤ e2) {chain : ZMod p → ZMod p}
    (hc : ∀ v, chain v = v ^ ((p - 3) / 4)) (x : Fp2 p) (hx : IsSquare x) :
    sqrtF e2 e3 chain x * sqrtF e2 e3 chain x = x := by
  have h4 := hp.mod4
  have hexp : 2 ^ (e2 - 2) * 3 ^ e3 = (p + 1) / 4 := by
    rw [he]
    obtain ⟨k, rfl⟩ : ∃ k, e2 = k + 2 := ⟨e2 - 2, by omega⟩
    rw [Nat.add_sub_cancel, pow_add, show 2 ^ k * 2 ^ 2 * 3 ^ e3 = 2 ^ k * 3 ^ e3 * 4 by ring]
    omega
  have htwo : (2 : ZMod p) ≠ 0 := two_ne_zero'
  unfold sqrtF
  simp only [sqrs_eq, cubes_eq, ← pow_mul, hexp, hc]
  by_cases hb : x.im = 0
  · simp only [hb, if_true]
    rcases quarter_sq x.re with h | h
    · rw [if_pos h]
      ext
      · simpa using h
      · simp [hb]
    · by_cases h' : x.re ^ ((p + 1) / 4) * x.re ^ ((p + 1) / 4) = x.re
      · rw [if_pos h']
        ext
        · simpa using h'
        · simp [hb]
      · rw [if_neg h']
        ext
        · simp only [QuadraticAlgebra.re_mul]; rw [mul_assoc, h]; ring
        · simp [hb]
  · simp only [hb, if_false]
    obtain ⟨z, rfl⟩ := hx
    set a := (z * z).re with ha
    set b := (z * z).im with hbdef
    set n := z.re * z.re + z.im * z.im with hn
    have hnorm : a * a + b * b = n * n := by
      simp only [ha, hbdef, hn, QuadraticAlgebra.re_mul, QuadraticAlgebra.im_mul]; ring
    rw [hnorm]
    have hs := quarter_sq_of_sq n
    set s := (n * n) ^ ((p + 1) / 4) with hsdef
    set v := (a + s) / 2 with hv
    have hv2 : 2 * v = a + s := by rw [hv]; field_simp
    -- v * v' = -b²/4
    have hvv : v * (a - v) * 4 = -(b * b) := by
      have e : s = 2 * v - a := by linear_combination -hv2
      rw [e, ← hnorm] at hs
      linear_combination -hs
    have hv0 : v ≠ 0 := by
      intro h
      rw [h] at hvv
      apply hb
      have : b * b = 0 := by linear_combination hvv
      exact mul_self_eq_zero.1 this
    set e := v ^ ((p - 3) / 4) with hedef
    have hee : v * e * (e) = v ^ ((p - 1) / 2) := by
      rw [hedef, mul_assoc, ← pow_add, ← pow_succ']
      congr 1; omega
    have ex : (z * z) = ⟨a, b⟩ := rfl
    rw [ex]
    have h4' : (4 : ZMod p) ≠ 0 := by rw [show (4 : ZMod p) = 2 * 2 by norm_num]; exact mul_ne_zero htwo htwo
    obtain ⟨c, hc'⟩ : ∃ c, b = 2 * c := ⟨b / 2, by field_simp⟩
    have hc2 : e * b / 2 = e * c := by rw [hc']; field_simp
    rw [hc2]
    have hvc : v * (a - v) = -(c * c) := by
      apply mul_left_cancel₀ h4'
      rw [hc'] at hvv
      linear_combination hvv
    rcases pow_half v hv0 with h | h
    · rw [h] at hee
      clear_value e v s a b
      have hw : v = v * e * (v * e) := by linear_combination -v * hee
      rw [if_pos hw]
      ext
      · simp only [QuadraticAlgebra.re_mul]
        apply mul_left_cancel₀ hv0
        linear_combination -v * hw - c * c * hee - hvc
      · simp only [QuadraticAlgebra.im_mul]
        rw [hc']
        linear_combination 2 * c * hee
    · rw [h] at hee
      clear_value e v s a b
      have hw' : v * e * (v * e) = -v := by linear_combination v * hee
      have hw : ¬ v = v * e * (v * e) := by
        rw [hw']
        intro h0
        have : 2 * v = 0 := by linear_combination h0
        rcases mul_eq_zero.1 this with h1 | h1
        · exact htwo h1
        · exact hv0 h1
      rw [if_neg hw]
      ext
      · simp only [QuadraticAlgebra.re_mul]
        apply mul_left_cancel₀ hv0
        linear_combination -v * hw' + c * c * hee - hvc
      · simp only [QuadraticAlgebra.im_mul]
        rw [hc']
        linear_combination -2 * c * hee

end

end Secuer.Field
