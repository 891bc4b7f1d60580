import Verif.Curve.Mont

/-!
# The x-only arithmetic of the code computes the group law

`xDBL`, `xTPL`, `xDBLADD` and `Ladder` against `Mont.Rep`.
-/

namespace Secuer.Curve

open Secuer.Mont

variable {K : Type} [Field K]

/-- `(A24plus : C24)` stands for the coefficient `A`: they are `(A + 2 : 4)` up to scaling. -/
def Is24 (A A24plus C24 : K) : Prop := ∃ c, c ≠ 0 ∧ A24plus = c * (A + 2) ∧ C24 = c * 4

/-- `(A24minus, A24plus)` stands for the coefficient `A`: they are `(A - 2, A + 2)` up to scaling. -/
def IsPM (A A24minus A24plus : K) : Prop := ∃ c, c ≠ 0 ∧ A24minus = c * (A - 2) ∧ A24plus = c * (A + 2)

theorem acToAac24_is24 (E : Crv K) (hC : E.C ≠ 0) :
    Is24 (E.A / E.C) (acToAac24 E).1 (acToAac24 E).2.2 ∧
      IsPM (E.A / E.C) (acToAac24 E).2.1 (acToAac24 E).1 := by
  refine ⟨⟨E.C, hC, ?_, ?_⟩, ⟨E.C, hC, ?_, ?_⟩⟩ <;> simp only [acToAac24] <;> field_simp <;> ring

variable [DecidableEq K]

theorem xDBL_rep {A a c : K} (h2 : (2 : K) ≠ 0) (hac : Is24 A a c) {p : Pt K} {P : (W A).Point}
    (hp : Rep p P) : Rep (xDBL p a c) (2 • P) := by
  rw [two_smul]
  obtain ⟨k, hk, rfl, rfl⟩ := hac
  have h4 : (4 : K) ≠ 0 := by
    have : (4 : K) = 2 * 2 := by norm_num
    rw [this]; exact mul_ne_zero h2 h2
  refine hp.of_as_right h2 hp (s := ⟨1, 0⟩) (by rw [sub_self]; exact rep_xr 0) ?_
  refine ⟨(k * 4)⁻¹, inv_ne_zero (mul_ne_zero hk h4), ?_, ?_, ?_⟩
  · simp only [xDBL, b0]; field_simp; ring
  · simp only [xDBL, b1]; field_simp; ring
  · simp only [xDBL, b2]; ring

theorem xDBLe_rep {A a c : K} (h2 : (2 : K) ≠ 0) (hac : Is24 A a c) (e : ℕ) {p : Pt K}
    {P : (W A).Point} (hp : Rep p P) : Rep (xDBLe p a c e) (2 ^ e • P) := by
  induction e generalizing p P with
  | zero => simpa [xDBLe] using hp
  | succ e ih =>
    rw [xDBLe, pow_succ, mul_smul]
    exact ih (xDBL_rep h2 hac hp)

theorem xTPL_rep {A a c : K} (h2 : (2 : K) ≠ 0) (hac : IsPM A a c) {p : Pt K} {P : (W A).Point}
    (hp : Rep p P) : Rep (xTPL p a c) (3 • P) := by
  have hd : Rep (xDBL p (A + 2) 4) (P + P) := by
    rw [← two_smul ℕ]; exact xDBL_rep h2 ⟨1, one_ne_zero, by ring, by ring⟩ hp
  have e3 : 3 • P = (P + P) + P := by rw [succ_nsmul, two_smul]
  rw [e3]
  obtain ⟨k, hk, rfl, rfl⟩ := hac
  refine hd.of_as_right h2 hp (s := p) (by simpa using hp) ?_
  have h4 : (4 : K) ≠ 0 := by
    have : (4 : K) = 2 * 2 := by norm_num
    rw [this]; exact mul_ne_zero h2 h2
  refine ⟨(k ^ 2 * 2)⁻¹, inv_ne_zero (mul_ne_zero (pow_ne_zero _ hk) h2), ?_, ?_, ?_⟩
  · simp only [xTPL, xDBL, b0]; field_simp; ring
  · simp only [xTPL, xDBL, b1]; field_simp; ring
  · simp only [xTPL, xDBL, b2]; field_simp; ring

theorem xTPLe_rep {A a c : K} (h2 : (2 : K) ≠ 0) (hac : IsPM A a c) (e : ℕ) {p : Pt K}
    {P : (W A).Point} (hp : Rep p P) : Rep (xTPLe p a c e) (3 ^ e • P) := by
  induction e generalizing p P with
  | zero => simpa [xTPLe] using hp
  | succ e ih =>
    rw [xTPLe, pow_succ, mul_smul]
    exact ih (xTPL_rep h2 hac hp)

/-- `xDBLADD` with the constant `(A + 2)/4` doubles its first argument and adds the two, given the
difference, as long as the x-coordinate of the difference is neither zero nor infinite. -/
theorem xDBLADD_rep {A a24 : K} (h2 : (2 : K) ≠ 0) (ha : a24 * 4 = A + 2) {p q d : Pt K}
    {P Q : (W A).Point} (hp : Rep p P) (hq : Rep q Q) (hd : Rep d (P - Q)) (hX : d.X ≠ 0)
    (hZ : d.Z ≠ 0) :
    Rep (xDBLADD p q d.X d.Z a24).1 (2 • P) ∧ Rep (xDBLADD p q d.X d.Z a24).2 (P + Q) := by
  have h4 : (4 : K) ≠ 0 := by
    have : (4 : K) = 2 * 2 := by norm_num
    rw [this]; exact mul_ne_zero h2 h2
  constructor
  · have : (xDBLADD p q d.X d.Z a24).1 = xDBL p a24 1 := by
      simp only [xDBLADD, xDBL, Pt.mk.injEq]; constructor <;> ring
    rw [this]
    exact xDBL_rep h2 ⟨4⁻¹, inv_ne_zero h4, by rw [← ha]; field_simp, by field_simp⟩ hp
  · obtain ⟨c, hc, e0, e1, e2⟩ := hp.as h2 hq (rep_xr _) hd
    refine (rep_xr (P + Q)).peq ⟨4 * c * d.X * d.Z,
      mul_ne_zero (mul_ne_zero (mul_ne_zero h4 hc) hX) hZ, ?_, ?_⟩
    · simp only [xDBLADD, b0] at e0 ⊢
      linear_combination 4 * d.Z * e0
    · simp only [xDBLADD, b2] at e2 ⊢
      linear_combination 4 * d.X * e2

/-- Loop invariant of the ladder: `R0` and `R1` are `k P` and `(k+1) P`, in an order given by the
previous bit. -/
theorem ladderLoop_rep {A a24 : K} (h2 : (2 : K) ≠ 0) (ha : a24 * 4 = A + 2) {p : Pt K}
    {P : (W A).Point} (hp : Rep p P) (hX : p.X ≠ 0) (hZ : p.Z ≠ 0) (bits : List Bool) :
    ∀ (k : ℕ) (prev : Bool) (R0 R1 : Pt K),
      (Rep (if prev then R1 else R0) (k • P)) → (Rep (if prev then R0 else R1) ((k + 1) • P)) →
      Rep (ladderLoop p.X p.Z a24 bits prev R0 R1)
        ((bits.foldl (fun n b => 2 * n + b.toNat) k) • P) := by
  induction bits with
  | nil => intro k prev R0 R1 h0 _; simpa [ladderLoop] using h0
  | cons b bits ih =>
    intro k prev R0 R1 h0 h1
    simp only [ladderLoop, List.foldl_cons]
    obtain ⟨S0, S1, hS⟩ : ∃ S0 S1, (if (b != prev) = true then (R1, R0) else (R0, R1)) = (S0, S1) :=
      ⟨_, _, rfl⟩
    rw [hS]
    have hS' : Rep (if b then S1 else S0) (k • P) ∧ Rep (if b then S0 else S1) ((k + 1) • P) := by
      cases b <;> cases prev <;> simp at hS h0 h1 ⊢ <;> obtain ⟨rfl, rfl⟩ := hS <;> exact ⟨h0, h1⟩
    obtain ⟨hk, hk1⟩ := hS'
    cases b with
    | false =>
      simp only [Bool.false_eq_true, if_false, Bool.toNat_false, add_zero] at hk hk1 ⊢
      have hd : Rep p (k • P - (k + 1) • P) := by
        rw [add_smul, one_smul, sub_add_cancel_left]; exact hp.neg
      obtain ⟨r0, r1⟩ := xDBLADD_rep h2 ha hk hk1 hd hX hZ
      refine ih (2 * k) false _ _ ?_ ?_
      · simpa [mul_smul] using r0
      · have : k • P + (k + 1) • P = (2 * k + 1) • P := by rw [← add_smul]; congr 1; ring
        rw [this] at r1
        simpa using r1
    | true =>
      simp only [if_true, Bool.toNat_true] at hk hk1 ⊢
      have hd : Rep p ((k + 1) • P - k • P) := by
        rw [add_smul, one_smul, add_sub_cancel_left]; exact hp
      obtain ⟨r0, r1⟩ := xDBLADD_rep h2 ha hk1 hk hd hX hZ
      refine ih (2 * k + 1) true _ _ ?_ ?_
      · have : (k + 1) • P + k • P = (2 * k + 1) • P := by rw [← add_smul]; congr 1; ring
        rw [this] at r1
        simpa using r1
      · have : (2 : ℕ) • (k + 1) • P = (2 * k + 1 + 1) • P := by rw [← mul_smul]; congr 1
        rw [this] at r0
        simpa using r0

theorem bitsOf_value (m : ℕ) : ∀ (n k : ℕ),
    (bitsOf m n).foldl (fun n b => 2 * n + b.toNat) k = k * 2 ^ n + m % 2 ^ n
  | 0, k => by simp [bitsOf, Nat.mod_one]
  | n + 1, k => by
    simp only [bitsOf, List.foldl_cons]
    rw [bitsOf_value m n, Nat.mod_pow_succ, Nat.toNat_testBit, pow_succ]
    ring

/-- The ladder computes the multiple by the low `order_bits` bits of the scalar. -/
theorem ladder_rep {A : K} (h2 : (2 : K) ≠ 0) {p : Pt K} {P : (W A).Point} (hp : Rep p P)
    (hX : p.X ≠ 0) (hZ : p.Z ≠ 0) (m n : ℕ) : Rep (ladder p m A n) ((m % 2 ^ n) • P) := by
  have ha : ((A + (1 + 1)) / 2 / 2) * 4 = A + 2 := by
    have : (4 : K) = 2 * 2 := by norm_num
    rw [this]; field_simp; ring
  have := ladderLoop_rep h2 ha hp hX hZ (bitsOf m n) 0 false ⟨1, 0⟩ p
    (by simpa using rep_xr (A := A) 0) (by simpa using hp)
  rw [bitsOf_value, zero_mul, zero_add] at this
  exact this

end Secuer.Curve
