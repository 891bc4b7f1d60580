import Verif.Curve.Isog
import Verif.Curve.Strategy

/-!
# Base change

The code computes in `F = GF(p²)`; the points behind the x-coordinates live over an algebraic closure `K`
(an x-coordinate in `F` belongs to a point of the curve or of its quadratic twist). All straight-line
formulas commute with a field homomorphism `φ : F → K`.
-/

namespace Secuer.Curve

open Secuer.Mont

variable {F K : Type} [Field F] [Field K] (φ : F →+* K)

/-- The image of a pair under a field homomorphism. -/
def Pt.map (p : Pt F) : Pt K := ⟨φ p.X, φ p.Z⟩

@[simp] theorem Pt.map_X (p : Pt F) : (p.map φ).X = φ p.X := rfl
@[simp] theorem Pt.map_Z (p : Pt F) : (p.map φ).Z = φ p.Z := rfl

theorem map_xDBL (p : Pt F) (a c : F) : (xDBL p a c).map φ = xDBL (p.map φ) (φ a) (φ c) := by
  simp [xDBL, Pt.map]

theorem map_xDBLe (p : Pt F) (a c : F) (e : ℕ) :
    (xDBLe p a c e).map φ = xDBLe (p.map φ) (φ a) (φ c) e := by
  induction e generalizing p with
  | zero => rfl
  | succ e ih => simp only [xDBLe]; rw [ih, map_xDBL]

theorem map_xTPL (p : Pt F) (a c : F) : (xTPL p a c).map φ = xTPL (p.map φ) (φ a) (φ c) := by
  simp [xTPL, Pt.map]

theorem map_xTPLe (p : Pt F) (a c : F) (e : ℕ) :
    (xTPLe p a c e).map φ = xTPLe (p.map φ) (φ a) (φ c) e := by
  induction e generalizing p with
  | zero => rfl
  | succ e ih => simp only [xTPLe]; rw [ih, map_xTPL]

theorem map_f2 (x : F) (p : Pt F) : (f2 x p).map φ = f2 (φ x) (p.map φ) := by simp [f2, Pt.map, map_ofNat]
theorem map_f3 (x : F) (p : Pt F) : (f3 x p).map φ = f3 (φ x) (p.map φ) := by simp [f3, Pt.map]
theorem map_f4 (x : F) (p : Pt F) : (f4 x p).map φ = f4 (φ x) (p.map φ) := by simp [f4, Pt.map, map_ofNat]

theorem map_aff (p : Pt F) : φ (aff p) = aff (p.map φ) := by simp [aff]

theorem PEq.map {p q : Pt F} (h : PEq p q) : PEq (p.map φ) (q.map φ) := by
  obtain ⟨k, hk, h1, h2⟩ := h
  exact ⟨φ k, by simpa using hk, by simp [h1], by simp [h2]⟩

theorem nz_map {p : Pt F} : Nz (p.map φ) ↔ Nz p := by simp [Nz]

theorem peq_of_map {p q : Pt F} (hp : Nz p) (hq : Nz q) (h : PEq (p.map φ) (q.map φ)) : PEq p q := by
  apply peq_of_cross hp hq
  have := h.cross
  simp only [Pt.map_X, Pt.map_Z, ← map_mul] at this
  exact φ.injective this

theorem aff_congr {p q : Pt F} (h : PEq p q) : aff p = aff q := by
  obtain ⟨k, hk, h1, h2⟩ := h
  simp only [aff, h1, h2]
  by_cases hz : p.Z = 0
  · simp [hz]
  · field_simp

/-! ### Homogeneity -/

theorem xDBL_congr {p q : Pt F} (a c : F) (h : PEq p q) : PEq (xDBL p a c) (xDBL q a c) := by
  obtain ⟨k, hk, h1, h2⟩ := h
  exact ⟨k ^ 4, pow_ne_zero _ hk, by simp only [xDBL, h1, h2]; ring, by simp only [xDBL, h1, h2]; ring⟩

theorem xDBLe_congr {p q : Pt F} (a c : F) (e : ℕ) (h : PEq p q) :
    PEq (xDBLe p a c e) (xDBLe q a c e) := by
  induction e generalizing p q with
  | zero => exact h
  | succ e ih => exact ih (xDBL_congr a c h)

theorem xTPL_congr {p q : Pt F} (a c : F) (h : PEq p q) : PEq (xTPL p a c) (xTPL q a c) := by
  obtain ⟨k, hk, h1, h2⟩ := h
  exact ⟨k ^ 9, pow_ne_zero _ hk, by simp only [xTPL, h1, h2]; ring, by simp only [xTPL, h1, h2]; ring⟩

theorem xTPLe_congr {p q : Pt F} (a c : F) (e : ℕ) (h : PEq p q) :
    PEq (xTPLe p a c e) (xTPLe q a c e) := by
  induction e generalizing p q with
  | zero => exact h
  | succ e ih => exact ih (xTPL_congr a c h)

theorem xDBL_is24 {A a c : F} (h : Is24 A a c) (p : Pt F) : PEq (xDBL p (A + 2) 4) (xDBL p a c) := by
  obtain ⟨k, hk, rfl, rfl⟩ := h
  exact ⟨k, hk, by simp only [xDBL]; ring, by simp only [xDBL]; ring⟩

theorem xDBLe_is24 {A a c : F} (h : Is24 A a c) (p : Pt F) (e : ℕ) :
    PEq (xDBLe p (A + 2) 4 e) (xDBLe p a c e) := by
  induction e generalizing p with
  | zero => exact PEq.refl _
  | succ e ih => exact (xDBLe_congr _ _ e (xDBL_is24 h p)).trans (ih _)

theorem xTPL_isPM {A a c : F} (h : IsPM A a c) (p : Pt F) :
    PEq (xTPL p (A - 2) (A + 2)) (xTPL p a c) := by
  obtain ⟨k, hk, rfl, rfl⟩ := h
  exact ⟨k ^ 2, pow_ne_zero _ hk, by simp only [xTPL]; ring, by simp only [xTPL]; ring⟩

theorem xTPLe_isPM {A a c : F} (h : IsPM A a c) (p : Pt F) (e : ℕ) :
    PEq (xTPLe p (A - 2) (A + 2) e) (xTPLe p a c e) := by
  induction e generalizing p with
  | zero => exact PEq.refl _
  | succ e ih => exact (xTPLe_congr _ _ e (xTPL_isPM h p)).trans (ih _)

theorem xDBLe_add (p : Pt F) (a c : F) (m n : ℕ) :
    xDBLe (xDBLe p a c m) a c n = xDBLe p a c (m + n) := by
  induction m generalizing p with
  | zero => simp [xDBLe]
  | succ m ih => rw [Nat.succ_add]; simp only [xDBLe]; exact ih _

theorem xTPLe_add (p : Pt F) (a c : F) (m n : ℕ) :
    xTPLe (xTPLe p a c m) a c n = xTPLe p a c (m + n) := by
  induction m generalizing p with
  | zero => simp [xTPLe]
  | succ m ih => rw [Nat.succ_add]; simp only [xTPLe]; exact ih _

theorem f2_congr (x : F) {p q : Pt F} (h : PEq p q) : PEq (f2 x p) (f2 x q) := by
  obtain ⟨k, hk, h1, h2⟩ := h
  exact ⟨k ^ 2, pow_ne_zero _ hk, by simp only [f2, h1, h2]; ring, by simp only [f2, h1, h2]; ring⟩

theorem f3_congr (x : F) {p q : Pt F} (h : PEq p q) : PEq (f3 x p) (f3 x q) := by
  obtain ⟨k, hk, h1, h2⟩ := h
  exact ⟨k ^ 3, pow_ne_zero _ hk, by simp only [f3, h1, h2]; ring, by simp only [f3, h1, h2]; ring⟩

theorem f4_congr (x : F) {p q : Pt F} (h : PEq p q) : PEq (f4 x p) (f4 x q) := by
  obtain ⟨k, hk, h1, h2⟩ := h
  exact ⟨k ^ 4, pow_ne_zero _ hk, by simp only [f4, h1, h2]; ring, by simp only [f4, h1, h2]; ring⟩

theorem is24_map {A a c : F} (h : Is24 A a c) : Is24 (φ A) (φ a) (φ c) := by
  obtain ⟨k, hk, rfl, rfl⟩ := h
  exact ⟨φ k, by simpa using hk, by simp [map_ofNat], by simp [map_ofNat]⟩

theorem isPM_map {A a c : F} (h : IsPM A a c) : IsPM (φ A) (φ a) (φ c) := by
  obtain ⟨k, hk, rfl, rfl⟩ := h
  exact ⟨φ k, by simpa using hk, by simp [map_ofNat], by simp [map_ofNat]⟩

theorem is24_std (A : F) : Is24 A (A + 2) 4 := ⟨1, one_ne_zero, by ring, by ring⟩
theorem isPM_std (A : F) : IsPM A (A - 2) (A + 2) := ⟨1, one_ne_zero, by ring, by ring⟩

include φ in
theorem two_map (h2 : (2 : F) ≠ 0) : (2 : K) ≠ 0 := by
  have : φ 2 ≠ 0 := by simpa using h2
  simpa [map_ofNat] using this

theorem sq_ne_four_map {A : F} (h : A ^ 2 ≠ 4) : φ A ^ 2 ≠ 4 := by
  intro h'; apply h; apply φ.injective; simpa [map_ofNat] using h'

theorem sq_ne_four_of_map {A : F} (h : φ A ^ 2 ≠ 4) : A ^ 2 ≠ 4 := by
  intro h'; apply h; rw [← map_pow, h', map_ofNat]

variable [DecidableEq K]

/-- Doubling over `F` seen over `K`. -/
theorem xDBLe_rep' {A : F} (h2 : (2 : F) ≠ 0) {a c : F} (hac : Is24 A a c) {p : Pt F}
    {P : (W (φ A)).Point} (hp : Rep (p.map φ) P) (e : ℕ) : Rep ((xDBLe p a c e).map φ) (2 ^ e • P) := by
  rw [map_xDBLe]
  exact xDBLe_rep (two_map φ h2) (is24_map φ hac) e hp

theorem xTPLe_rep' {A : F} (h2 : (2 : F) ≠ 0) {a c : F} (hac : IsPM A a c) {p : Pt F}
    {P : (W (φ A)).Point} (hp : Rep (p.map φ) P) (e : ℕ) : Rep ((xTPLe p a c e).map φ) (3 ^ e • P) := by
  rw [map_xTPLe]
  exact xTPLe_rep (two_map φ h2) (isPM_map φ hac) e hp

end Secuer.Curve
