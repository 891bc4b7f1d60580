import Mathlib.FieldTheory.IsAlgClosed.AlgebraicClosure
import Mathlib.FieldTheory.Finite.Basic
import Mathlib.GroupTheory.OrderOfElement
import Mathlib.Data.Nat.Prime.Basic
import Mathlib.Tactic.LinearCombination
import Mathlib.Tactic.FieldSimp
import Mathlib.Tactic.Ring

/-!
# The four primes are prime

`p + 1 = 2^a 3^b` is fully factored, so `p` is proved prime by a Lucas test: an element of norm one of a
quadratic extension of order `p + 1` exists modulo every prime factor `q` of `p`, but such orders are at
most `q + 1`.
-/

namespace Secuer.Field

/-- `v ↦ v² - 2` modulo `N`: doubles the index of a Lucas sequence. -/
def v2 (N v : ℕ) : ℕ := (v * v + (N - 2)) % N
/-- `v ↦ v³ - 3 v` modulo `N`: triples the index. -/
def v3 (N v : ℕ) : ℕ := (v * v * v + 3 * (N - v)) % N

def iter (f : ℕ → ℕ) : ℕ → ℕ → ℕ
  | 0, v => v
  | n + 1, v => iter f n (f v)

theorem v2_lt {N : ℕ} (h : 0 < N) (v : ℕ) : v2 N v < N := Nat.mod_lt _ h
theorem v3_lt {N : ℕ} (h : 0 < N) (v : ℕ) : v3 N v < N := Nat.mod_lt _ h

section

variable {K : Type} [Field K] {N : ℕ}

/-- `v` is the trace of `α` modulo `N`. -/
def Tr (N : ℕ) (v : ℕ) (α : K) : Prop := v < N ∧ (v : K) = α + α⁻¹

theorem cast_mod (hN : (N : K) = 0) (v : ℕ) : ((v % N : ℕ) : K) = v := by
  conv_rhs => rw [← Nat.div_add_mod v N]
  push_cast
  rw [hN, zero_mul, zero_add]

theorem Tr.two (hN : (N : K) = 0) (h2 : 2 < N) {v : ℕ} {α : K} (hα : α ≠ 0) (h : Tr N v α) : Tr N (v2 N v) (α ^ 2) := by
  refine ⟨v2_lt (by omega) _, ?_⟩
  unfold v2
  rw [cast_mod hN]
  push_cast [Nat.cast_sub (show 2 ≤ N by omega)]
  rw [h.2, hN]
  field_simp
  ring

theorem Tr.three (hN : (N : K) = 0) (h2 : 2 < N) {v : ℕ} {α : K} (hα : α ≠ 0) (h : Tr N v α) : Tr N (v3 N v) (α ^ 3) := by
  refine ⟨v3_lt (by omega) _, ?_⟩
  unfold v3
  rw [cast_mod hN]
  push_cast [Nat.cast_sub h.1.le]
  rw [h.2, hN]
  field_simp
  ring

theorem Tr.iter {f : ℕ → ℕ} {k : ℕ} (hf : ∀ v (α : K), α ≠ 0 → Tr N v α → Tr N (f v) (α ^ k)) : ∀ (n v : ℕ) (α : K), α ≠ 0 →
    Tr N v α → Tr N (Field.iter f n v) (α ^ k ^ n)
  | 0, v, α, _, h => by simpa [Field.iter] using h
  | n + 1, v, α, hα, h => by
    have := Tr.iter hf n (f v) (α ^ k) (pow_ne_zero _ hα) (hf v α hα h)
    rw [← pow_mul, ← pow_succ'] at this
    exact this

end

theorem lucas_aux {N a b t q : ℕ} (K : Type) [Field K] [IsAlgClosed K] [hqp' : Fact q.Prime] [CharP K q]
    (hN : N + 1 = 2 ^ (a + 1) * 3 ^ (b + 1)) (ht : t < N)
    (h1 : iter (v3 N) (b + 1) (iter (v2 N) a t) = N - 2) (h2 : iter (v3 N) b (iter (v2 N) (a + 1) t) = N - 1) (hqN : q ∣ N) (hqlt : q < N) : False := by
  have hqp := hqp'.out
  have hN5 : 5 ≤ N := by
    have e1 : 1 ≤ 2 ^ a := Nat.one_le_two_pow
    have e2 : 1 ≤ 3 ^ b := Nat.one_le_pow _ _ (by norm_num)
    rw [pow_succ, pow_succ] at hN
    nlinarith [Nat.mul_le_mul e1 e2]
  have hodd : ¬ 2 ∣ N := by
    have : 2 ∣ N + 1 := by rw [hN, pow_succ]; exact ⟨2 ^ a * 3 ^ (b + 1), by ring⟩
    omega
  have h3 : ¬ 3 ∣ N := by
    have : 3 ∣ N + 1 := by rw [hN, pow_succ 3]; exact ⟨2 ^ (a + 1) * 3 ^ b, by ring⟩
    omega
  have hK0 : ∀ m : ℕ, (m : K) = 0 ↔ q ∣ m := fun m => CharP.cast_eq_zero_iff K q m
  have hNK : (N : K) = 0 := (hK0 N).2 hqN
  have h2K : (2 : K) ≠ 0 := by
    intro h
    have := (hK0 2).1 (by exact_mod_cast h)
    rw [(Nat.prime_dvd_prime_iff_eq hqp Nat.prime_two).1 this] at hqN
    exact hodd hqN
  have h3K : (3 : K) ≠ 0 := by
    intro h
    have := (hK0 3).1 (by exact_mod_cast h)
    rw [(Nat.prime_dvd_prime_iff_eq hqp Nat.prime_three).1 this] at hqN
    exact h3 hqN
  -- an element of trace `t`
  obtain ⟨s, hs⟩ := IsAlgClosed.exists_pow_nat_eq ((t : K) ^ 2 - 4) (n := 2) (by norm_num)
  set α : K := (t + s) / 2 with hα
  have hpoly : α ^ 2 - t * α + 1 = 0 := by
    rw [hα]
    field_simp
    linear_combination hs
  have hα0 : α ≠ 0 := by
    intro h
    rw [h] at hpoly
    simp at hpoly
  have htr : Tr N t α := by
    refine ⟨ht, ?_⟩
    field_simp
    linear_combination -hpoly
  have hN2 : 2 < N := by omega
  have d2 := fun v (β : K) hβ h => Tr.two hNK hN2 (v := v) (α := β) hβ h
  have d3 := fun v (β : K) hβ h => Tr.three hNK hN2 (v := v) (α := β) hβ h
  have t1 := Tr.iter d3 (b + 1) _ _ (pow_ne_zero _ hα0) (Tr.iter d2 a t α hα0 htr)
  have t2 := Tr.iter d3 b _ _ (pow_ne_zero _ hα0) (Tr.iter d2 (a + 1) t α hα0 htr)
  rw [h1, ← pow_mul] at t1
  rw [h2, ← pow_mul] at t2
  have e1 := t1.2
  have e2 := t2.2
  have hm1 : (N + 1) / 2 = 2 ^ a * 3 ^ (b + 1) := by rw [hN, pow_succ, show 2 ^ a * 2 * 3 ^ (b + 1) = 2 ^ a * 3 ^ (b + 1) * 2 by ring]; omega
  have hm2 : (N + 1) / 3 = 2 ^ (a + 1) * 3 ^ b := by rw [hN, pow_succ 3, ← mul_assoc]; omega
  rw [← hm1] at e1
  rw [← hm2] at e2
  push_cast [Nat.cast_sub (show 2 ≤ N by omega), Nat.cast_sub (show 1 ≤ N by omega)] at e1 e2
  rw [hNK] at e1 e2
  have u1 : α ^ ((N + 1) / 2) = -1 := by
    have hne := pow_ne_zero ((N + 1) / 2) hα0
    generalize α ^ ((N + 1) / 2) = u at *
    field_simp at e1
    have : (u + 1) ^ 2 = 0 := by linear_combination -e1
    have := pow_eq_zero_iff (two_ne_zero) |>.1 this
    linear_combination this
  have u2 : α ^ ((N + 1) / 3) ≠ 1 := by
    intro h
    rw [h] at e2
    apply h3K
    linear_combination -e2
  have hev : (N + 1) / 2 * 2 = N + 1 := by
    rw [hm1, hN, pow_succ]; ring
  have hone : α ^ (N + 1) = 1 := by
    rw [← hev, pow_mul, u1]; ring
  have hord : orderOf α = N + 1 := by
    refine orderOf_eq_of_pow_and_pow_div_prime (by omega) hone fun r hr hrd => ?_
    rw [hN] at hrd
    rcases (Nat.Prime.dvd_mul hr).1 hrd with h | h
    · have := (Nat.prime_dvd_prime_iff_eq hr Nat.prime_two).1 (hr.dvd_of_dvd_pow h)
      subst this
      rw [u1]
      intro h
      apply h2K
      linear_combination -h
    · have := (Nat.prime_dvd_prime_iff_eq hr Nat.prime_three).1 (hr.dvd_of_dvd_pow h)
      subst this
      exact u2
  -- Frobenius permutes the roots
  have hfr : (α ^ q) ^ 2 - t * α ^ q + 1 = 0 := by
    have h := congrArg (frobenius K q) hpoly
    simp only [map_add, map_sub, map_mul, map_pow, map_one, map_zero, frobenius_def] at h
    have ht' : (t : K) ^ q = t := by
      have := congrArg (ZMod.castHom (dvd_refl q) K) (ZMod.pow_card (p := q) (t : ZMod q))
      rwa [map_pow, map_natCast] at this
    rw [ht'] at h
    rw [← h]
  have hfac : (α ^ q - α) * (α * α ^ q - 1) = 0 := by linear_combination α * hfr - α ^ q * hpoly
  have hle : orderOf α ≤ q + 1 := by
    rcases mul_eq_zero.1 hfac with h | h
    · have hq1 : α ^ (q - 1) = 1 := by
        have : α ^ (q - 1) * α = 1 * α := by
          rw [← pow_succ, Nat.sub_add_cancel hqp.one_lt.le, one_mul]; linear_combination h
        exact mul_right_cancel₀ hα0 this
      have := orderOf_le_of_pow_eq_one (by have := hqp.two_le; omega) hq1
      omega
    · have hq1 : α ^ (q + 1) = 1 := by rw [pow_succ]; linear_combination h
      exact orderOf_le_of_pow_eq_one (by omega) hq1
  omega

/-- The test. -/
theorem prime_of_lucas {N a b t : ℕ} (hN : N + 1 = 2 ^ (a + 1) * 3 ^ (b + 1)) (ht : t < N)
    (h1 : iter (v3 N) (b + 1) (iter (v2 N) a t) = N - 2) (h2 : iter (v3 N) b (iter (v2 N) (a + 1) t) = N - 1) :
    N.Prime := by
  have hN1 : N ≠ 1 := by
    rintro rfl
    have e1 : 1 ≤ 2 ^ a := Nat.one_le_two_pow
    have e2 : 1 ≤ 3 ^ b := Nat.one_le_pow _ _ (by norm_num)
    rw [pow_succ, pow_succ] at hN
    nlinarith [Nat.mul_le_mul e1 e2]
  by_contra hnp
  have hqp : N.minFac.Prime := Nat.minFac_prime hN1
  have : Fact N.minFac.Prime := ⟨hqp⟩
  have : CharP (AlgebraicClosure (ZMod N.minFac)) N.minFac :=
    charP_of_injective_algebraMap (algebraMap (ZMod N.minFac) _).injective _
  exact lucas_aux (q := N.minFac) (AlgebraicClosure (ZMod N.minFac)) hN ht h1 h2 (Nat.minFac_dvd N)
    (lt_of_le_of_ne (Nat.minFac_le (by omega)) fun h => hnp (h ▸ hqp))

/-- The primes of the four parameter sets (`P434.c:28-32` …: `p = 2^e2 * 3^e3 - 1`). -/
def p434 : ℕ := 2 ^ 216 * 3 ^ 137 - 1
def p503 : ℕ := 2 ^ 250 * 3 ^ 159 - 1
def p610 : ℕ := 2 ^ 305 * 3 ^ 192 - 1
def p751 : ℕ := 2 ^ 372 * 3 ^ 239 - 1

theorem prime434 : p434.Prime :=
  prime_of_lucas (a := 215) (b := 136) (t := 3) (by decide +kernel) (by decide +kernel) (by decide +kernel) (by decide +kernel)
theorem prime503 : p503.Prime :=
  prime_of_lucas (a := 249) (b := 158) (t := 3) (by decide +kernel) (by decide +kernel) (by decide +kernel) (by decide +kernel)
theorem prime610 : p610.Prime :=
  prime_of_lucas (a := 304) (b := 191) (t := 9) (by decide +kernel) (by decide +kernel) (by decide +kernel) (by decide +kernel)
theorem prime751 : p751.Prime :=
  prime_of_lucas (a := 371) (b := 238) (t := 11) (by decide +kernel) (by decide +kernel) (by decide +kernel) (by decide +kernel)

end Secuer.Field
