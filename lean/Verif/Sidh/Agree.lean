import Verif.Sidh.Basis
import Verif.Sidh.Walk

/-!
# The key exchange: both sides obtain the same j-invariant
-/

namespace Secuer.Sidh

open Secuer.Curve Secuer.Mont

variable {F K : Type} [Field F] [DecidableEq F] [Field K] [DecidableEq K] [IsAlgClosed K] (φ : F →+* K)

/-- The three x-coordinates are those of `P`, `Q` and `P - Q`. -/
structure Repr3 {A : K} (t : Three F) (P Q : (W A).Point) : Prop where
  xP : Rep ⟨φ t.P, 1⟩ P
  xQ : Rep ⟨φ t.Q, 1⟩ Q
  xR : Rep ⟨φ t.R, 1⟩ (P - Q)

/-- The constants of the program are torsion bases of the curve `y^2 = x^3 + 6x^2 + x`. -/
structure GensAre (cfg : Cfg F) (PA QA PB QB : (W (φ 6)).Point) : Prop where
  a : Repr3 φ cfg.genA PA QA
  b : Repr3 φ cfg.genB PB QB
  basisA : Basis2 cfg.e2 PA QA
  basisB : Basis3 cfg.e3 PB QB

variable {φ}

omit [DecidableEq F] [IsAlgClosed K] in
theorem normalize_ok {A : K} {p q r : Pt F} {P Q : (W A).Point} (hp : Rep (p.map φ) P) (hq : Rep (q.map φ) Q)
    (hr : Rep (r.map φ) (P - Q)) (hP : Away P) (hQ : Away Q) (hR : Away (P - Q)) :
    ∃ t, normalize [p, q, r] = some t ∧ Repr3 φ t P Q := by
  have z1 : p.Z ≠ 0 := by have := (hP.rep hp).2; simpa using this
  have z2 : q.Z ≠ 0 := by have := (hQ.rep hq).2; simpa using this
  have z3 : r.Z ≠ 0 := by have := (hR.rep hr).2; simpa using this
  have key : ∀ {p : Pt F} {X : (W A).Point}, p.Z ≠ 0 → Rep (p.map φ) X → Rep ⟨φ (p.X * p.Z⁻¹), 1⟩ X := by
    intro p X hz h
    refine h.peq ⟨(φ p.Z)⁻¹, inv_ne_zero (by simpa using hz), ?_, ?_⟩
    · simp [mul_comm]
    · have : φ p.Z ≠ 0 := by simpa using hz
      simp [this]
  refine ⟨_, by simp only [normalize, inv3way_eq z1 z2 z3]; rfl, key z1 hp, key z2 hq, key z3 hr⟩

omit [DecidableEq F] [IsAlgClosed K] in
theorem ladder_ok (h2 : (2 : K) ≠ 0) {a : F} {t : Three F} {P Q : (W (φ a)).Point} (h : Repr3 φ t P Q)
    (haway : ∀ j : ℤ, Away (P + j • Q)) (m n : ℕ) : Rep ((ladder3pt t.P t.Q t.R m n a).map φ) (P + (m % 2 ^ n) • Q) := by
  rw [map_ladder3pt]
  exact ladder3pt_rep h2 h.xP h.xQ h.xR haway m n

omit [DecidableEq F] [IsAlgClosed K] in
theorem getA_ok (h2 : (2 : K) ≠ 0) {a : F} {t : Three F} {P Q : (W (φ a)).Point} (h : Repr3 φ t P Q) (hP : Away P)
    (hQ : Away Q) (hR : Away (P - Q)) : getA t.P t.Q t.R = a := by
  apply φ.injective
  rw [map_getA]
  exact getA_eq h2 h.xP h.xQ h.xR (hP.rep h.xP).1 (hQ.rep h.xQ).1 (hR.rep h.xR).1

section

variable {cfg : Cfg F} {PA QA PB QB : (W (φ 6)).Point}

omit [DecidableEq F] in
theorem six_ne (h2F : (2 : F) ≠ 0) : (6 : F) ^ 2 ≠ 4 := by
  intro h
  have : (2 : F) ^ 5 = 0 := by linear_combination h
  exact pow_ne_zero 5 h2F this

omit [DecidableEq F] in
/-- Alice's public key: the images of Bob's basis under the isogeny with kernel `PA + m QA`. -/
theorem keyGenA_ok (h2F : (2 : F) ≠ 0) (hG : cfg.toEnv.toIsoParams.Good) (hg : GensAre φ cfg PA QA PB QB) (m : ℕ) :
    ∃ pk a gF gK ψ, keyGenA cfg m = some pk ∧ FIsog φ 2 cfg.e2 6 a gF gK (PA + (m % 2 ^ cfg.e2) • QA) ⟨0, 1⟩ ∧
      Isog (2 ^ cfg.e2) (φ 6) (φ a) gK ψ ∧ Repr3 φ pk (ψ PB) (ψ QB) ∧ Basis3 cfg.e3 (ψ PB) (ψ QB) ∧
      ψ.ker = AddSubgroup.zmultiples (PA + (m % 2 ^ cfg.e2) • QA) := by
  have h2 := two_map φ h2F
  have hgood : Good2 cfg.e2 (PA + (m % 2 ^ cfg.e2) • QA) := by
    have := hg.basisA.good h2 ((m % 2 ^ cfg.e2 : ℕ) : ℤ)
    rwa [natCast_zsmul] at this
  obtain ⟨a, gF, gK, cv, h, h1, -, h3, h4⟩ := walkA_ok φ h2F hG (a := 8) (c := 4) (six_ne h2F)
    ⟨1, one_ne_zero, by norm_num, by norm_num⟩ (ladder_ok h2 hg.a (hg.basisA.away h2) m cfg.e2) hgood
  obtain ⟨ψ, hi, hk⟩ := h4.isog h2 Nat.prime_two
  have hb := hg.basisB.map hi
  have hrep : ∀ {x : F} {X : (W (φ 6)).Point}, Rep ⟨φ x, 1⟩ X → Rep ((h ⟨x, 1⟩).map φ) (ψ X) := by
    intro x X hx
    have h5 := hi.rep _ _ hx
    have e : (⟨φ x, 1⟩ : Pt K) = Pt.map φ ⟨x, 1⟩ := by simp [Pt.map]
    rw [e, h4.lift] at h5
    exact h5.peq (PEq.map φ (h3 _))
  obtain ⟨t, ht, hr⟩ := normalize_ok (φ := φ) (hrep hg.b.xP) (hrep hg.b.xQ) (by rw [← map_sub]; exact hrep hg.b.xR)
    (hb.away_P h2) (hb.away_Q h2) (hb.away_PQ h2)
  refine ⟨t, a, gF, gK, ψ, ?_, h4, hi, hr, hb, hk⟩
  have e1 : (1 + 1 + 4 : F) = 6 := by norm_num
  have e2 : (4 + 4 : F) = 8 := by norm_num
  have e3 : (1 + 1 + (1 + 1) : F) = 4 := by norm_num
  simp only [keyGenA, e3, e1, e2, h1]
  exact ht

omit [DecidableEq F] in
/-- Bob's public key: the images of Alice's basis under the isogeny with kernel `PB + m QB`. -/
theorem keyGenB_ok (h2F : (2 : F) ≠ 0) (hG : cfg.toEnv.toIsoParams.Good) (hg : GensAre φ cfg PA QA PB QB) (m : ℕ) :
    ∃ pk a gF gK b ψ, keyGenB cfg m = some pk ∧
      FIsog φ 3 cfg.e3 6 a gF gK (PB + (m % 2 ^ (cfg.bobBits - 1)) • QB) b ∧
      Isog (3 ^ cfg.e3) (φ 6) (φ a) gK ψ ∧ Repr3 φ pk (ψ PA) (ψ QA) ∧ Basis2 cfg.e2 (ψ PA) (ψ QA) ∧
      ψ.ker = AddSubgroup.zmultiples (PB + (m % 2 ^ (cfg.bobBits - 1)) • QB) := by
  have h2 := two_map φ h2F
  have hgood : Good3 cfg.e3 (PB + (m % 2 ^ (cfg.bobBits - 1)) • QB) := by
    have := hg.basisB.good ((m % 2 ^ (cfg.bobBits - 1) : ℕ) : ℤ)
    rwa [natCast_zsmul] at this
  obtain ⟨a, gF, gK, b, cv, h, h1, -, h3, h4⟩ := walkB_ok φ h2F hG (a := 4) (c := 8) (six_ne h2F)
    ⟨1, one_ne_zero, by norm_num, by norm_num⟩ (ladder_ok h2 hg.b (hg.basisB.away h2) m (cfg.bobBits - 1)) hgood
  obtain ⟨ψ, hi, hk⟩ := h4.isog h2 Nat.prime_three
  have hb := hg.basisA.map h2 hi (h4.norm.2 rfl)
  have hrep : ∀ {x : F} {X : (W (φ 6)).Point}, Rep ⟨φ x, 1⟩ X → Rep ((h ⟨x, 1⟩).map φ) (ψ X) := by
    intro x X hx
    have h5 := hi.rep _ _ hx
    have e : (⟨φ x, 1⟩ : Pt K) = Pt.map φ ⟨x, 1⟩ := by simp [Pt.map]
    rw [e, h4.lift] at h5
    exact h5.peq (PEq.map φ (h3 _))
  obtain ⟨t, ht, hr⟩ := normalize_ok (φ := φ) (hrep hg.a.xP) (hrep hg.a.xQ) (by rw [← map_sub]; exact hrep hg.a.xR)
    (hb.away_P h2) (hb.away_Q h2) (hb.away_PQ h2)
  refine ⟨t, a, gF, gK, b, ψ, ?_, h4, hi, hr, hb, hk⟩
  have e1 : (1 + 1 + 4 : F) = 6 := by norm_num
  have e2 : (4 + 4 : F) = 8 := by norm_num
  have e3 : (1 + 1 + (1 + 1) : F) = 4 := by norm_num
  simp only [keyGenB, e3, e1, e2, h1]
  exact ht

end

/-- The j-invariant of the Montgomery curve with coefficient `d`. -/
def jOf (d : F) : F := 256 * (d ^ 2 - 3) ^ 3 / (d ^ 2 - 4)

omit [DecidableEq F] in
theorem secretA_ok {cfg : Cfg F} (h2F : (2 : F) ≠ 0) (hG : cfg.toEnv.toIsoParams.Good) {a : F} (ha : a ^ 2 ≠ 4) {pk : Three F}
    {P Q : (W (φ a)).Point} (hr : Repr3 φ pk P Q) (hb : Basis2 cfg.e2 P Q) (m : ℕ) :
    ∃ d gF gK, secretA cfg m pk = some (jOf d) ∧ FIsog φ 2 cfg.e2 a d gF gK (P + (m % 2 ^ cfg.e2) • Q) ⟨0, 1⟩ := by
  have h2 := two_map φ h2F
  have h4F := four_ne_zero_of h2F
  have hgood : Good2 cfg.e2 (P + (m % 2 ^ cfg.e2) • Q) := by
    have := hb.good h2 ((m % 2 ^ cfg.e2 : ℕ) : ℤ)
    rwa [natCast_zsmul] at this
  have hA := getA_ok h2 hr (hb.away_P h2) (hb.away_Q h2) (hb.away_PQ h2)
  obtain ⟨d, gF, gK, cv, h, h1, ⟨k, hk, k1, k2⟩, -, h4⟩ := walkA_ok φ h2F hG (a := a + 2) (c := 4) ha
    ⟨1, one_ne_zero, by ring, by ring⟩ (ladder_ok h2 hr (hb.away h2) m cfg.e2) hgood
  refine ⟨d, gF, gK, ?_, h4⟩
  have e1 : (1 + 1 : F) = 2 := by norm_num
  have e3 : (2 + 2 : F) = 4 := by norm_num
  simp only [secretA, hA, e1, e3, h1, Option.some.injEq]
  have e4 : cv.1 + cv.1 - cv.2 + (cv.1 + cv.1 - cv.2) = k * 4 * d := by rw [k1, k2]; ring
  rw [e4, k2, jInv_eq h2F (mul_ne_zero hk h4F), mul_div_cancel_left₀ _ (mul_ne_zero hk h4F)]
  rfl

theorem secretB_ok {cfg : Cfg F} (h2F : (2 : F) ≠ 0) (hG : cfg.toEnv.toIsoParams.Good) {a : F} (ha : a ^ 2 ≠ 4) {pk : Three F}
    {P Q : (W (φ a)).Point} (hr : Repr3 φ pk P Q) (hb : Basis3 cfg.e3 P Q) (m sike : ℕ) :
    ∃ d gF gK b, secretB cfg sike m pk =
        some (if sike = 1 ∧ validate cfg pk a (a + 2) (a - 2) = false then none else some (jOf d)) ∧
      FIsog φ 3 cfg.e3 a d gF gK (P + (m % 2 ^ (cfg.bobBits - 1)) • Q) b := by
  have h2 := two_map φ h2F
  have h4F := four_ne_zero_of h2F
  have hgood : Good3 cfg.e3 (P + (m % 2 ^ (cfg.bobBits - 1)) • Q) := by
    have := hb.good ((m % 2 ^ (cfg.bobBits - 1) : ℕ) : ℤ)
    rwa [natCast_zsmul] at this
  have hA := getA_ok h2 hr (hb.away_P h2) (hb.away_Q h2) (hb.away_PQ h2)
  obtain ⟨d, gF, gK, b, cv, h, h1, ⟨k, hk, k1, k2⟩, -, h4⟩ := walkB_ok φ h2F hG (a := a - 2) (c := a + 2) ha
    ⟨1, one_ne_zero, by ring, by ring⟩ (ladder_ok h2 hr (hb.away h2) m (cfg.bobBits - 1)) hgood
  refine ⟨d, gF, gK, b, ?_, h4⟩
  have e1 : (1 + 1 : F) = 2 := by norm_num
  simp only [secretB, hA, e1, h1]
  by_cases hv : sike = 1 ∧ validate cfg pk a (a + 2) (a - 2) = false
  · rw [if_pos hv, if_pos hv]
  · rw [if_neg hv, if_neg hv]
    have e4 : cv.2 + cv.1 + (cv.2 + cv.1) = k * 4 * d := by rw [k1, k2]; ring
    have e5 : cv.2 - cv.1 = k * 4 := by rw [k1, k2]; ring
    rw [e4, e5, jInv_eq h2F (mul_ne_zero hk h4F), mul_div_cancel_left₀ _ (mul_ne_zero hk h4F)]
    rfl

/-- Both sides obtain the same value, unless Bob's side rejects Alice's public key. -/
theorem exchange_agrees {cfg : Cfg F} {PA QA PB QB : (W (φ 6)).Point} (h2F : (2 : F) ≠ 0) (h3F : (3 : F) ≠ 0)
    (hG : cfg.toEnv.toIsoParams.Good) (hg : GensAre φ cfg PA QA PB QB) (mA mB sike : ℕ) :
    ∃ pA pB j a d gF gK, keyGenA cfg mA = some pA ∧ keyGenB cfg mB = some pB ∧ secretA cfg mA pB = some j ∧
      secretB cfg sike mB pA =
        some (if sike = 1 ∧ validate cfg pA a (a + 2) (a - 2) = false then none else some j) ∧
      FIsog φ 2 cfg.e2 6 a gF gK (PA + (mA % 2 ^ cfg.e2) • QA) ⟨0, 1⟩ ∧
      (∃ P Q : (W (φ a)).Point, Repr3 φ pA P Q ∧ Basis3 cfg.e3 P Q) ∧
      j = jOf d ∧ ∃ χ : (W (φ 6)).Point →+ (W (φ d)).Point, Function.Surjective χ ∧
        χ.ker = AddSubgroup.zmultiples (PA + (mA % 2 ^ cfg.e2) • QA) ⊔
          AddSubgroup.zmultiples (PB + (mB % 2 ^ (cfg.bobBits - 1)) • QB) := by
  have h2 := two_map φ h2F
  have h3 : (3 : K) ≠ 0 := by
    have := (map_ne_zero φ).2 h3F
    simpa [map_ofNat] using this
  obtain ⟨pA, a, fF, fK, ψ, gA, kf, iA, rA, bA, nA⟩ := keyGenA_ok h2F hG hg mA
  obtain ⟨pB, b, gF, gK, t, χ, gB, kg, iB, rB, bB, nB⟩ := keyGenB_ok h2F hG hg mB
  obtain ⟨d, fF', fK', sA, kf'⟩ := secretA_ok h2F hG (sq_ne_four_of_map φ iB.tgt) rB bB mA
  obtain ⟨d', gF', gK', t', sB, kg'⟩ := secretB_ok h2F hG (sq_ne_four_of_map φ iA.tgt) rA bA mB sike
  obtain ⟨rfl, -⟩ := FIsog.square h2 h3 kf kg kf' kg'
    (by rw [← map_nsmul, ← map_add]; exact iB.rep _ _ (rep_xr _))
    (by rw [← map_nsmul, ← map_add]; exact iA.rep _ _ (rep_xr _))
  obtain ⟨χ', iD, nD⟩ := kg'.isog h2 Nat.prime_three
  refine ⟨pA, pB, _, a, d, fF, fK, gA, gB, sA, sB, kf, ⟨_, _, rA, bA⟩, rfl, χ'.comp ψ, iD.surj.comp iA.surj, ?_⟩
  rw [← AddMonoidHom.comap_ker, nD, ← map_nsmul, ← map_add, ← AddMonoidHom.map_zmultiples, AddSubgroup.comap_map_eq, nA, sup_comm]

end Secuer.Sidh
