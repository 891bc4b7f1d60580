import Verif.Sidh.Model
import Verif.Curve.BaseChange

/-!
# The formulas of the key exchange compute the group law

`inv_3_way`, `get_A`, `LADDER3PT` and `xTPL_fast` against `Mont.Rep`.
-/

namespace Secuer.Sidh

open Secuer.Curve Secuer.Mont

section

variable {F : Type} [Field F]

theorem inv3way_eq {z1 z2 z3 : F} (h1 : z1 ≠ 0) (h2 : z2 ≠ 0) (h3 : z3 ≠ 0) :
    inv3way z1 z2 z3 = (z1⁻¹, z2⁻¹, z3⁻¹) := by
  simp only [inv3way, Prod.mk.injEq]
  refine ⟨?_, ?_, ?_⟩ <;> field_simp

theorem xTPLfast_peq (h2 : (2 : F) ≠ 0) (p : Pt F) (A : F) : PEq (xTPLfast p (A / 2)) (xTPL p (A - 2) (A + 2)) := by
  refine ⟨2 ^ 5, pow_ne_zero _ h2, ?_, ?_⟩
  · simp only [xTPLfast, xTPL]; field_simp; ring
  · simp only [xTPLfast, xTPL]; field_simp; ring

theorem xTPLeFast_peq (h2 : (2 : F) ≠ 0) (A : F) (n : ℕ) : ∀ {p q : Pt F}, PEq p q →
    PEq (xTPLeFast p (A / 2) n) (xTPLe q (A - 2) (A + 2) n) := by
  induction n with
  | zero => intro p q h; exact h
  | succ n ih =>
    intro p q h
    exact ih ((xTPLfast_peq h2 p A).trans (xTPL_congr _ _ h))

theorem xTPLeFast_succ (p : Pt F) (A2 : F) (n : ℕ) : xTPLfast (xTPLeFast p A2 n) A2 = xTPLeFast p A2 (n + 1) := by
  induction n generalizing p with
  | zero => rfl
  | succ n ih => exact ih _

end

variable {K : Type} [Field K] [DecidableEq K] {A : K}

/-- `get_A` recovers the coefficient from the x-coordinates of two points and their difference. -/
theorem getA_eq (h2 : (2 : K) ≠ 0) {P Q : (W A).Point} {xP xQ xR : K} (hP : Rep ⟨xP, 1⟩ P) (hQ : Rep ⟨xQ, 1⟩ Q)
    (hR : Rep ⟨xR, 1⟩ (P - Q)) (h1 : xP ≠ 0) (h3 : xQ ≠ 0) (h4 : xR ≠ 0) : getA xP xQ xR = A := by
  obtain ⟨c, hc, e0, e1, e2⟩ := hP.as h2 hQ (rep_xr _) hR
  have h44 : (4 : K) ≠ 0 := by
    have : (4 : K) = 2 * 2 := by norm_num
    rw [this]; exact mul_ne_zero h2 h2
  have key : (xP * xQ + xR * (xP + xQ) - 1) ^ 2 = 4 * xP * xQ * xR * (A + (xP + xQ + xR)) := by
    simp only [b0, b1, b2, mul_one, one_mul] at e0 e1 e2
    linear_combination e0 - xR * e1 + xR ^ 2 * e2
  simp only [getA]
  have hd : xP * xQ * xR + xP * xQ * xR + (xP * xQ * xR + xP * xQ * xR) = 4 * xP * xQ * xR := by ring
  rw [hd]
  have hne : 4 * xP * xQ * xR ≠ 0 := mul_ne_zero (mul_ne_zero (mul_ne_zero h44 h1) h3) h4
  rw [show (xP * xQ + xR * (xP + xQ) - 1) * (xP * xQ + xR * (xP + xQ) - 1) = 4 * xP * xQ * xR * (A + (xP + xQ + xR)) by
    rw [← key]; ring, mul_comm, ← mul_assoc, inv_mul_cancel₀ hne]
  ring

/-- The x-coordinate of `X` is neither zero nor infinite. -/
def Away (X : (W A).Point) : Prop := X ≠ 0 ∧ (xr X).X ≠ 0

omit [DecidableEq K] in
theorem Away.rep {X : (W A).Point} (h : Away X) {p : Pt K} (hp : Rep p X) : p.X ≠ 0 ∧ p.Z ≠ 0 :=
  ⟨fun e => h.2 (hp.X_iff.1 e), fun e => h.1 (hp.Z_iff.1 e)⟩

/-- Loop invariant: `R0 = 2^i Q`; `R` and `R2` are `P + k Q` and `P + k Q - 2^i Q`, in an order given by the previous bit, where
`k` is the part of the scalar already read. -/
theorem ladder3Loop_rep (h2 : (2 : K) ≠ 0) {a24 : K} (ha : a24 * 4 = A + 2) {P Q : (W A).Point}
    (haway : ∀ j : ℤ, Away (P + j • Q)) (m : ℕ) (n : ℕ) : ∀ (i : ℕ) (prev : Bool) (R0 R2 R : Pt K),
      Rep R0 ((2 ^ i : ℤ) • Q) →
      Rep (if prev then R2 else R) (P + ((m % 2 ^ i : ℕ) : ℤ) • Q) →
      Rep (if prev then R else R2) (P + (((m % 2 ^ i : ℕ) : ℤ) - 2 ^ i) • Q) →
      Rep (ladder3Loop a24 (bitsFrom m i n) prev R0 R2 R) (P + ((m % 2 ^ (i + n) : ℕ) : ℤ) • Q) := by
  induction n with
  | zero => intro i prev R0 R2 R _ h _; simpa [ladder3Loop, bitsFrom] using h
  | succ n ih =>
    intro i prev R0 R2 R h0 h1 h3
    simp only [bitsFrom, ladder3Loop]
    obtain ⟨b, hb⟩ : ∃ b, m.testBit i = b := ⟨_, rfl⟩
    have hmod : ((m % 2 ^ (i + 1) : ℕ) : ℤ) = ((m % 2 ^ i : ℕ) : ℤ) + 2 ^ i * (b.toNat : ℤ) := by
      rw [Nat.mod_pow_succ, ← hb, Nat.toNat_testBit]; push_cast; ring
    rw [hb]
    obtain ⟨S, S2, hS⟩ : ∃ S S2, (if (b != prev) = true then (R2, R) else (R, R2)) = (S, S2) := ⟨_, _, rfl⟩
    rw [hS]
    generalize ((m % 2 ^ i : ℕ) : ℤ) = k at *
    have hS' : Rep (if b then S2 else S) (P + k • Q) ∧ Rep (if b then S else S2) (P + (k - 2 ^ i) • Q) := by
      cases b <;> cases prev <;> simp at hS h1 h3 ⊢ <;> obtain ⟨rfl, rfl⟩ := hS <;> exact ⟨h1, h3⟩
    obtain ⟨g1, g3⟩ := hS'
    rw [show i + (n + 1) = i + 1 + n by ring]
    have hpow : (2 ^ (i + 1) : ℤ) = 2 * 2 ^ i := by ring
    cases b with
    | false =>
      simp only [Bool.false_eq_true, if_false, Bool.toNat_false, Nat.cast_zero, mul_zero, add_zero] at g1 g3 hmod ⊢
      have hd : Rep S ((2 ^ i : ℤ) • Q - -(P + (k - 2 ^ i) • Q)) := by
        have : (2 ^ i : ℤ) • Q - -(P + (k - 2 ^ i) • Q) = P + k • Q := by rw [sub_smul]; abel
        rw [this]; exact g1
      obtain ⟨hx, hz⟩ := (haway k).rep g1
      obtain ⟨r0, r1⟩ := xDBLADD_rep h2 ha h0 g3.neg hd hx hz
      refine ih (i + 1) false _ _ _ ?_ ?_ ?_
      · rw [hpow, mul_smul]
        simpa [two_smul] using r0
      · rw [hmod]; simpa using g1
      · rw [hmod, hpow]
        have e : P + (k - 2 * 2 ^ i) • Q = -((2 ^ i : ℤ) • Q + -(P + (k - 2 ^ i) • Q)) := by
          rw [sub_smul, sub_smul, mul_smul, two_smul]; abel
        rw [e]
        simpa using r1.neg
    | true =>
      simp only [if_true, Bool.toNat_true, Nat.cast_one, mul_one] at g1 g3 hmod ⊢
      have hd : Rep S ((2 ^ i : ℤ) • Q - (P + k • Q)) := by
        have : (2 ^ i : ℤ) • Q - (P + k • Q) = -(P + (k - 2 ^ i) • Q) := by rw [sub_smul]; abel
        rw [this]; exact g3.neg
      obtain ⟨hx, hz⟩ := (haway (k - 2 ^ i)).rep g3
      obtain ⟨r0, r1⟩ := xDBLADD_rep h2 ha h0 g1 hd hx hz
      refine ih (i + 1) true _ _ _ ?_ ?_ ?_
      · rw [hpow, mul_smul]
        simpa [two_smul] using r0
      · rw [hmod]
        have e : P + (k + 2 ^ i) • Q = (2 ^ i : ℤ) • Q + (P + k • Q) := by rw [add_smul]; abel
        rw [e]
        simpa using r1
      · rw [hmod, hpow]
        have e : P + (k + 2 ^ i - 2 * 2 ^ i) • Q = P + (k - 2 ^ i) • Q := by
          congr 2; ring
        rw [e]
        simpa using g3

/-- `LADDER3PT` computes `P + k Q` from the x-coordinates of `P`, `Q` and `P - Q`, where `k` are the low bits of the scalar. -/
theorem ladder3pt_rep (h2 : (2 : K) ≠ 0) {P Q : (W A).Point} {xP xQ xR : K} (hP : Rep ⟨xP, 1⟩ P) (hQ : Rep ⟨xQ, 1⟩ Q)
    (hR : Rep ⟨xR, 1⟩ (P - Q)) (haway : ∀ j : ℤ, Away (P + j • Q)) (m n : ℕ) :
    Rep (ladder3pt xP xQ xR m n A) (P + (m % 2 ^ n) • Q) := by
  have ha : ((A + (1 + 1)) / 2 / 2) * 4 = A + 2 := by
    have : (4 : K) = 2 * 2 := by norm_num
    rw [this]; field_simp; ring
  have := ladder3Loop_rep h2 ha haway m n 0 false ⟨xQ, 1⟩ ⟨xR, 1⟩ ⟨xP, 1⟩ (by simpa using hQ)
    (by simpa [Nat.mod_one] using hP) (by simpa [Nat.mod_one, sub_eq_add_neg] using hR)
  rw [zero_add, natCast_zsmul] at this
  exact this

variable {F : Type} [Field F] (φ : F →+* K)

omit [DecidableEq K] in
theorem map_getA (a b c : F) : φ (getA a b c) = getA (φ a) (φ b) (φ c) := by simp [getA]

omit [DecidableEq K] in
theorem map_ladder3Loop (a24 : F) (bits : List Bool) : ∀ (prev : Bool) (R0 R2 R : Pt F),
    (ladder3Loop a24 bits prev R0 R2 R).map φ = ladder3Loop (φ a24) bits prev (R0.map φ) (R2.map φ) (R.map φ) := by
  induction bits with
  | nil => intro prev R0 R2 R; cases prev <;> rfl
  | cons b bits ih =>
    intro prev R0 R2 R
    simp only [ladder3Loop]
    cases b <;> cases prev <;> simp only [bne_self_eq_false, Bool.false_eq_true, if_false, if_true, Bool.bne_true,
      Bool.bne_false, Bool.not_false, Bool.not_true] <;> rw [ih] <;> simp [xDBLADD, Pt.map]

omit [DecidableEq K] in
theorem map_ladder3pt (xP xQ xR : F) (m n : ℕ) (a : F) :
    (ladder3pt xP xQ xR m n a).map φ = ladder3pt (φ xP) (φ xQ) (φ xR) m n (φ a) := by
  simp only [ladder3pt]
  rw [map_ladder3Loop]
  simp [Pt.map, map_ofNat]

end Secuer.Sidh
