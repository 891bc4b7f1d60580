import Verif.Sidh.Gens
import Verif.Protocol.Complete
import Verif.Protocol.Runs
import Verif.Curve.SuperCheck
import Verif.Word.Encode

/-!
# Validation of public keys
-/

namespace Secuer.Sidh

open Secuer.Curve Secuer.Mont Secuer.Field Secuer.Word Secuer.Scalar Secuer.Text Secuer.Protocol

/-! ### Squares in `GF(p²)` -/

section squares

variable {p : ℕ} [hp : Prime3 p]

theorem sq_or_neg (u : ZMod p) : IsSquare u ∨ IsSquare (-u) := by
  rcases quarter_sq u with h | h
  · exact Or.inl ⟨_, h.symm⟩
  · exact Or.inr ⟨_, h.symm⟩

/-- An element is a square iff its norm is a square modulo `p`. -/
theorem fp2_isSquare_iff (x : Fp2 p) : IsSquare x ↔ IsSquare (x.re * x.re + x.im * x.im) := by
  have htwo : (2 : ZMod p) ≠ 0 := two_ne_zero'
  constructor
  · rintro ⟨z, rfl⟩
    exact ⟨z.re * z.re + z.im * z.im, by simp only [QuadraticAlgebra.re_mul, QuadraticAlgebra.im_mul]; ring⟩
  · rintro ⟨n, hn⟩
    by_cases hb : x.im = 0
    · rcases sq_or_neg x.re with ⟨s, hs⟩ | ⟨s, hs⟩
      · refine ⟨⟨s, 0⟩, ?_⟩
        ext
        · simp [hs]
        · simp [hb]
      · refine ⟨⟨0, s⟩, ?_⟩
        ext
        · simp only [QuadraticAlgebra.re_mul]; linear_combination -hs
        · simp [hb]
    · obtain ⟨v, hv⟩ : ∃ v, 2 * v = x.re + n := ⟨(x.re + n) / 2, by field_simp⟩
      have hvv : 4 * (v * (v - x.re)) = x.im * x.im := by
        have e : n = 2 * v - x.re := by linear_combination -hv
        rw [e] at hn
        linear_combination -hn
      have hv0 : v ≠ 0 := by
        rintro rfl
        exact hb (mul_self_eq_zero.1 (by linear_combination -hvv))
      rcases sq_or_neg v with ⟨s, hs⟩ | ⟨s, hs⟩
      · have hs0 : s ≠ 0 := by rintro rfl; exact hv0 (by rw [hs, mul_zero])
        refine ⟨⟨s, x.im / (2 * s)⟩, ?_⟩
        ext
        · simp only [QuadraticAlgebra.re_mul]
          field_simp
          rw [hs] at hvv
          linear_combination -hvv
        · simp only [QuadraticAlgebra.im_mul]
          field_simp
          ring
      · have hs0 : s ≠ 0 := by rintro rfl; exact hv0 (by rw [← neg_eq_zero, hs, mul_zero])
        refine ⟨⟨x.im / (2 * s), s⟩, ?_⟩
        have hs' : v = -(s * s) := by rw [← hs, neg_neg]
        ext
        · simp only [QuadraticAlgebra.re_mul]
          field_simp
          rw [hs'] at hvv
          linear_combination hvv
        · simp only [QuadraticAlgebra.im_mul]
          field_simp
          ring

end squares

/-- `is_sqr_fp2` decides whether its argument is a square. -/
theorem isSqrFp2_iff (l : Level) (a : l.F) : isSqrFp2 l a = true ↔ IsSquare a := by
  have h4 : l.p % 4 = 3 := Prime3.mod4
  have hexp : 2 ^ (l.iso.e2 - 2) * 3 ^ l.iso.e3 = (l.p + 1) / 4 := by
    have h2 : 2 ≤ l.iso.e2 := by cases l <;> decide
    rw [l.p_succ]
    obtain ⟨k, hk⟩ : ∃ k, l.iso.e2 = k + 2 := ⟨l.iso.e2 - 2, by omega⟩
    rw [hk, Nat.add_sub_cancel, pow_add, show 2 ^ k * 2 ^ 2 * 3 ^ l.iso.e3 = 2 ^ k * 3 ^ l.iso.e3 * 4 by ring]
    omega
  rw [fp2_isSquare_iff]
  simp only [isSqrFp2, sqrs_eq, cubes_eq, ← pow_mul, hexp, decide_eq_true_eq]
  constructor
  · intro h; exact ⟨_, h.symm⟩
  · rintro ⟨n, hn⟩; rw [hn]; exact quarter_sq_of_sq n

/-! ### Honest curves -/

/-- The starting curve of the key exchange is supersingular, with Frobenius multiplication by `-p`. -/
theorem super_six (l : Level) : Super l.φ l.σ l.p (6 : l.F) := by
  have h2 := two_map l.φ l.two
  have hA0 : (0 : l.F) ^ 2 ≠ 4 := by
    rw [zero_pow two_ne_zero]; exact (four_ne_zero_of l.two).symm
  have h0 : Super l.φ l.σ l.p (0 : l.F) :=
    super_of_card l.two hA0 card_fp2 l.eight l.three (card_zero (by have := l.p_big; omega))
  obtain ⟨i, hi⟩ : ∃ i : l.F, i * i = -1 := by
    obtain ⟨i, hi⟩ := fp2_neg_one (p := l.p)
    exact ⟨i, hi.symm⟩
  have hi0 : i ≠ 0 := by rintro rfl; rw [mul_zero] at hi; exact one_ne_zero (neg_eq_zero.1 hi.symm)
  obtain ⟨P, hP⟩ := exists_rep (A := l.φ 0) h2 (sq_ne_four_map l.φ hA0) (p := ⟨l.φ i, 1⟩) (Or.inr one_ne_zero)
  have hP' : Rep (Pt.map l.φ ⟨i, 1⟩) P := by simpa [Pt.map] using hP
  have hd := xDBL_rep h2 (is24_map l.φ (is24_std (0 : l.F))) hP'
  rw [← map_xDBL] at hd
  have hPz : P ≠ 0 := fun h => one_ne_zero (hP.Z_iff.2 h)
  have hPx : (xr P).X ≠ 0 := fun h => hi0 (by simpa using hP.X_iff.2 h)
  obtain ⟨x, hx, hc⟩ := cyc2 h2 (sq_ne_four_map l.φ hA0) (P := P) (hd.Z_iff.1 (by
    have : (xDBL (⟨i, 1⟩ : Pt l.F) (0 + 2) 4).Z = 0 := by
      simp only [xDBL]; linear_combination 16 * i * hi
    show l.φ (xDBL (⟨i, 1⟩ : Pt l.F) (0 + 2) 4).Z = 0
    rw [this, map_zero])) hPz hPx
  have hxi : x = l.φ i := by
    have := hP
    rw [Rep, hx] at this
    have := this.cross
    simpa using this
  rw [hxi] at hc
  have h6 : 2 - 4 * l.φ i ^ 2 = l.φ 6 := by
    have : (l.φ i) ^ 2 = -1 := by rw [pow_two, ← map_mul, hi, map_neg, map_one]
    rw [this, map_ofNat]; norm_num
  rw [h6] at hc
  refine (h0.x.trans l.setting.frob l.two hc.hom (defOver_f2 l.φ i) hc.surj (six_ne l.two)).super l.setting.frob l.two ?_
  obtain ⟨s, hs⟩ := h0.sq l.setting.frob l.two
  exact ⟨2 * s, by linear_combination 4 * hs⟩

/-- On such a curve both values tested by the validation are squares. -/
theorem super_squares (l : Level) {a : l.F} (h : Super l.φ l.σ l.p a) : IsSquare (a + 2) ∧ IsSquare (a - 2) := by
  obtain ⟨s, hs⟩ := h.sq l.setting.frob l.two
  obtain ⟨d, hd⟩ := h.disc l.setting.frob l.two
  refine ⟨⟨s, hs⟩, ?_⟩
  have hs0 : s ≠ 0 := by
    rintro rfl
    exact h.1 (by linear_combination (a - 2) * hs)
  refine ⟨d / s, ?_⟩
  field_simp
  rw [pow_two, ← hs]
  linear_combination hd

/-! ### No access outside an array, whatever the keys are -/

section total

variable {F : Type} [Field F] [DecidableEq F] {cfg : Cfg F}

theorem keyGenA_total (hG : cfg.toEnv.toIsoParams.Good) (m : ℕ) : ∃ pk, keyGenA cfg m = some pk := by
  simp only [keyGenA]
  obtain ⟨cv, h, e⟩ := walkA_total (env := cfg.toEnv) hG (1 + 1 + (1 + 1) + (1 + 1 + (1 + 1))) (1 + 1 + (1 + 1))
    (ladder3pt cfg.genA.P cfg.genA.Q cfg.genA.R m cfg.e2 (1 + 1 + (1 + 1 + (1 + 1))))
    [⟨cfg.genB.P, 1⟩, ⟨cfg.genB.Q, 1⟩, ⟨cfg.genB.R, 1⟩]
  rw [e]
  exact ⟨_, rfl⟩

theorem keyGenB_total (hG : cfg.toEnv.toIsoParams.Good) (m : ℕ) : ∃ pk, keyGenB cfg m = some pk := by
  simp only [keyGenB]
  obtain ⟨cv, h, e⟩ := walkB_total (env := cfg.toEnv) hG (1 + 1 + (1 + 1)) (1 + 1 + (1 + 1) + (1 + 1 + (1 + 1)))
    (ladder3pt cfg.genB.P cfg.genB.Q cfg.genB.R m (cfg.bobBits - 1) (1 + 1 + (1 + 1 + (1 + 1))))
    [⟨cfg.genA.P, 1⟩, ⟨cfg.genA.Q, 1⟩, ⟨cfg.genA.R, 1⟩]
  rw [e]
  exact ⟨_, rfl⟩

theorem secretA_total (hG : cfg.toEnv.toIsoParams.Good) (m : ℕ) (pk : Three F) : ∃ j, secretA cfg m pk = some j := by
  simp only [secretA]
  obtain ⟨cv, h, e⟩ := walkA_total (env := cfg.toEnv) hG (getA pk.P pk.Q pk.R + (1 + 1)) (1 + 1 + (1 + 1))
    (ladder3pt pk.P pk.Q pk.R m cfg.e2 (getA pk.P pk.Q pk.R)) []
  rw [e]
  exact ⟨_, rfl⟩

theorem secretB_total (hG : cfg.toEnv.toIsoParams.Good) (sike m : ℕ) (pk : Three F) : ∃ r, secretB cfg sike m pk = some r := by
  simp only [secretB]
  by_cases hv : sike = 1 ∧
      validate cfg pk (getA pk.P pk.Q pk.R) (getA pk.P pk.Q pk.R + (1 + 1)) (getA pk.P pk.Q pk.R - (1 + 1)) = false
  · rw [if_pos hv]; exact ⟨_, rfl⟩
  · rw [if_neg hv]
    obtain ⟨cv, h, e⟩ := walkB_total (env := cfg.toEnv) hG (getA pk.P pk.Q pk.R - (1 + 1)) (getA pk.P pk.Q pk.R + (1 + 1))
      (ladder3pt pk.P pk.Q pk.R m (cfg.bobBits - 1) (getA pk.P pk.Q pk.R)) []
    rw [e]
    exact ⟨_, rfl⟩

end total

/-! ### Validation -/

section valid

variable {F K : Type} [Field F] [DecidableEq F] [Field K] [DecidableEq K] [IsAlgClosed K] {φ : F →+* K} {cfg : Cfg F}

/-- The values compared by the validation -/
def tops (cfg : Cfg F) (pk : Three F) (A : F) : F × F :=
  let P := xTPLeFast ⟨pk.P, 1⟩ (A / 2) (cfg.maxB - 1)
  let Q := xTPLeFast ⟨pk.Q, 1⟩ (A / 2) (cfg.maxB - 1)
  (P.X * Q.Z, P.Z * Q.X)

omit [DecidableEq F] [IsAlgClosed K] in
theorem xTPLeFast_rep (h2F : (2 : F) ≠ 0) {a : F} {x : F} {X : (W (φ a)).Point} (h : Rep ⟨φ x, 1⟩ X) (n : ℕ) :
    Rep ((xTPLeFast ⟨x, 1⟩ (a / 2) n).map φ) (3 ^ n • X) := by
  have h' : Rep (Pt.map φ ⟨x, 1⟩) X := by simpa [Pt.map] using h
  exact (xTPLe_rep' φ h2F (isPM_std a) h' n).peq (PEq.map φ (xTPLeFast_peq h2F a n (PEq.refl _)).symm)

theorem validate_iff (pk : Three F) (A a24p a24m : F) : validate cfg pk A a24p a24m = true ↔
    (xTPLeFast ⟨pk.P, 1⟩ (A / 2) (cfg.maxB - 1)).Z ≠ 0 ∧ (xTPLeFast ⟨pk.Q, 1⟩ (A / 2) (cfg.maxB - 1)).Z ≠ 0 ∧
    cfg.same (tops cfg pk A).1 (tops cfg pk A).2 = false ∧
    (xTPLeFast ⟨pk.P, 1⟩ (A / 2) (cfg.maxB - 1 + 1)).Z = 0 ∧ (xTPLeFast ⟨pk.Q, 1⟩ (A / 2) (cfg.maxB - 1 + 1)).Z = 0 ∧
    (cfg.eight = true → cfg.isSqr a24p = true ∧ cfg.isSqr a24m = true) := by
  simp only [validate, tops, ← xTPLeFast_succ]
  split_ifs <;> simp_all <;> tauto

/-- An honest public key passes exactly if the comparison does not confuse the two values. -/
theorem validate_honest (h2F : (2 : F) ≠ 0) (hG : cfg.toEnv.toIsoParams.Good) {a : F} {pk : Three F}
    {P Q : (W (φ a)).Point} (hr : Repr3 φ pk P Q) (hb : Basis3 cfg.e3 P Q)
    (hs : cfg.eight = true → cfg.isSqr (a + 2) = true ∧ cfg.isSqr (a - 2) = true) :
    (tops cfg pk a).1 ≠ (tops cfg pk a).2 ∧
      validate cfg pk a (a + 2) (a - 2) = !cfg.same (tops cfg pk a).1 (tops cfg pk a).2 := by
  have hpos := hb.pos
  have e1 : cfg.e3 - 1 + 1 = cfg.e3 := by omega
  have rP := xTPLeFast_rep h2F hr.xP (cfg.e3 - 1)
  have rQ := xTPLeFast_rep h2F hr.xQ (cfg.e3 - 1)
  have rP' := xTPLeFast_rep h2F hr.xP cfg.e3
  have rQ' := xTPLeFast_rep h2F hr.xQ cfg.e3
  have zP : (xTPLeFast ⟨pk.P, 1⟩ (a / 2) (cfg.e3 - 1)).Z ≠ 0 := fun h => hb.topP (rP.Z_iff.1 (by simp [Pt.map, h]))
  have zQ : (xTPLeFast ⟨pk.Q, 1⟩ (a / 2) (cfg.e3 - 1)).Z ≠ 0 := fun h => hb.topQ (rQ.Z_iff.1 (by simp [Pt.map, h]))
  have zP' : (xTPLeFast ⟨pk.P, 1⟩ (a / 2) cfg.e3).Z = 0 := by
    have := rP'.Z_iff.2 hb.killP; simpa [Pt.map] using this
  have zQ' : (xTPLeFast ⟨pk.Q, 1⟩ (a / 2) cfg.e3).Z = 0 := by
    have := rQ'.Z_iff.2 hb.killQ; simpa [Pt.map] using this
  have hv := validate_iff (cfg := cfg) pk a (a + 2) (a - 2)
  rw [hG.maxB, e1] at hv
  constructor
  · intro h
    simp only [tops, hG.maxB] at h
    have hpe : PEq ((xTPLeFast ⟨pk.P, 1⟩ (a / 2) (cfg.e3 - 1)).map φ) ((xTPLeFast ⟨pk.Q, 1⟩ (a / 2) (cfg.e3 - 1)).map φ) :=
      PEq.map φ (peq_of_cross (Or.inr zP) (Or.inr zQ) (by rw [h]; ring))
    rcases rP.eq_or_neg (rQ.peq hpe.symm) with h | h
    · exact hb.ne h
    · exact hb.ne' h
  · rw [Bool.eq_iff_iff, hv]
    simp only [Bool.not_eq_true', zP, zQ, zP', zQ', ne_eq, not_false_eq_true, true_and]
    tauto

omit [DecidableEq F] in
/-- On the two singular curves: what a tripling that ends in the node looks like. -/
theorem tpl_node {ε : F} (hε : ε ^ 2 = 1) (p : Pt F) : (xTPLfast p ε).X + ε * (xTPLfast p ε).Z = (p.X + ε * p.Z) ^ 9 ∧
    (xTPLfast p ε).Z = p.Z * ((p.X + ε * p.Z) ^ 3 * (3 * p.X - ε * p.Z)) ^ 2 := by
  rcases (show ε = 1 ∨ ε = -1 from by
    rw [← sub_eq_zero, ← sub_eq_zero (b := -1), ← mul_eq_zero]; linear_combination hε) with rfl | rfl
  · constructor <;> simp only [xTPLfast] <;> ring
  · constructor <;> simp only [xTPLfast] <;> ring

/-- A public key for a singular curve does not pass: two points that become the node only at the last tripling are equal. -/
theorem validate_smooth (h2F : (2 : F) ≠ 0) (h3F : (3 : F) ≠ 0) (hm : 1 < cfg.maxB) (hrefl : ∀ x, cfg.same x x = true)
    {pk : Three F} {A a24p a24m : F} (h : validate cfg pk A a24p a24m = true) : A ^ 2 ≠ 4 := by
  intro hA
  obtain ⟨zP, zQ, hs, zP', zQ', -⟩ := (validate_iff pk A a24p a24m).1 h
  have hε : (A / 2) ^ 2 = 1 := by
    rw [div_pow, hA]; field_simp; norm_num
  obtain ⟨n, hn⟩ : ∃ n, cfg.maxB - 1 = n + 1 := ⟨cfg.maxB - 2, by omega⟩
  have hε0 : A / 2 ≠ 0 := fun h => by rw [h] at hε; simp at hε
  have key : ∀ x : F, (xTPLeFast ⟨x, 1⟩ (A / 2) (cfg.maxB - 1)).Z ≠ 0 →
      (xTPLeFast ⟨x, 1⟩ (A / 2) (cfg.maxB - 1 + 1)).Z = 0 →
      3 * (xTPLeFast ⟨x, 1⟩ (A / 2) (cfg.maxB - 1)).X = A / 2 * (xTPLeFast ⟨x, 1⟩ (A / 2) (cfg.maxB - 1)).Z := by
    intro x hz hz'
    rw [← xTPLeFast_succ, (tpl_node hε _).2] at hz'
    have h1 := (mul_eq_zero.1 hz').resolve_left hz
    rcases mul_eq_zero.1 (pow_eq_zero_iff two_ne_zero |>.1 h1) with h2 | h2
    · exfalso
      have h2 := pow_eq_zero_iff three_ne_zero |>.1 h2
      rw [hn, ← xTPLeFast_succ, (tpl_node hε _).1] at h2
      have h2 := pow_eq_zero_iff (by norm_num : 9 ≠ 0) |>.1 h2
      apply hz
      rw [hn, ← xTPLeFast_succ, (tpl_node hε _).2, h2]
      ring
    · exact sub_eq_zero.1 h2
  have kP := key _ zP zP'
  have kQ := key _ zQ zQ'
  have : (tops cfg pk A).1 = (tops cfg pk A).2 := by
    apply mul_left_cancel₀ h3F
    simp only [tops]
    rw [← mul_assoc, kP, mul_left_comm, kQ]
    ring
  rw [this, hrefl] at hs
  cases hs

/-- What an accepted public key is: a basis of the `3^e3`-torsion of the curve with the computed coefficient. If the third
coordinate is not zero, it is that of the difference. -/
theorem validate_sound (h2F : (2 : F) ≠ 0) (h3F : (3 : F) ≠ 0) (hG : cfg.toEnv.toIsoParams.Good) (hm : 1 < cfg.maxB)
    (hrefl : ∀ x, cfg.same x x = true) {pk : Three F} {a24p a24m : F}
    (h : validate cfg pk (getA pk.P pk.Q pk.R) a24p a24m = true) :
    (getA pk.P pk.Q pk.R) ^ 2 ≠ 4 ∧ (cfg.eight = true → cfg.isSqr a24p = true ∧ cfg.isSqr a24m = true) ∧
    ∃ P Q : (W (φ (getA pk.P pk.Q pk.R))).Point, Rep ⟨φ pk.P, 1⟩ P ∧ Rep ⟨φ pk.Q, 1⟩ Q ∧ Basis3 cfg.e3 P Q ∧
      (pk.R ≠ 0 → Rep ⟨φ pk.R, 1⟩ (P - Q)) := by
  have h2 := two_map φ h2F
  have hA := validate_smooth h2F h3F hm hrefl h
  obtain ⟨zP, zQ, hs, zP', zQ', h8⟩ := (validate_iff pk _ a24p a24m).1 h
  refine ⟨hA, h8, ?_⟩
  generalize hga : getA pk.P pk.Q pk.R = a at *
  have hAK := sq_ne_four_map φ hA
  obtain ⟨P, hP⟩ := exists_rep (A := φ a) h2 hAK (p := ⟨φ pk.P, 1⟩) (Or.inr one_ne_zero)
  obtain ⟨Q, hQ⟩ := exists_rep (A := φ a) h2 hAK (p := ⟨φ pk.Q, 1⟩) (Or.inr one_ne_zero)
  have hpos : 0 < cfg.e3 := by rw [← hG.maxB]; exact hG.maxB_pos
  have e1 : cfg.e3 - 1 + 1 = cfg.e3 := by omega
  rw [hG.maxB] at zP zQ zP' zQ'
  rw [e1] at zP' zQ'
  have rP := xTPLeFast_rep h2F hP (cfg.e3 - 1)
  have rQ := xTPLeFast_rep h2F hQ (cfg.e3 - 1)
  have hne : (tops cfg pk a).1 ≠ (tops cfg pk a).2 := by
    intro e
    rw [e, hrefl] at hs
    cases hs
  simp only [tops, hG.maxB] at hne
  have hcross : ∀ {X : (W (φ a)).Point}, Rep ((xTPLeFast ⟨pk.P, 1⟩ (a / 2) (cfg.e3 - 1)).map φ) X →
      ¬ Rep ((xTPLeFast ⟨pk.Q, 1⟩ (a / 2) (cfg.e3 - 1)).map φ) X := by
    intro X h1 h3
    have := (PEq.trans (show PEq _ _ from h1.symm) (show PEq _ _ from h3)).cross
    apply hne
    apply φ.injective
    simp only [Pt.map] at this
    simp only [map_mul]
    linear_combination this
  have hb : Basis3 cfg.e3 P Q := by
    refine ⟨hpos, ?_, ?_, ?_, ?_, ?_, ?_⟩
    · exact (xTPLeFast_rep h2F hP cfg.e3).Z_iff.1 (by simp [Pt.map, zP'])
    · exact (xTPLeFast_rep h2F hQ cfg.e3).Z_iff.1 (by simp [Pt.map, zQ'])
    · intro h0
      have := rP.Z_iff.2 h0
      exact zP (by simpa [Pt.map] using this)
    · intro h0
      have := rQ.Z_iff.2 h0
      exact zQ (by simpa [Pt.map] using this)
    · intro h0; exact hcross rP (by rw [h0]; exact rQ)
    · intro h0; exact hcross rP (by rw [h0]; exact rQ.neg)
  have hbn : Basis3 cfg.e3 P (-Q) := by
    refine ⟨hb.pos, hb.killP, by rw [smul_neg, hb.killQ, neg_zero], hb.topP, ?_, ?_, ?_⟩
    · rw [smul_neg, neg_ne_zero]; exact hb.topQ
    · rw [smul_neg]; exact hb.ne'
    · rw [smul_neg, neg_neg]; exact hb.ne
  by_cases hR : pk.R = 0
  · exact ⟨P, Q, hP, hQ, hb, fun h => absurd hR h⟩
  have hP0 : pk.P ≠ 0 := by have := ((hb.away_P h2).rep hP).1; simpa using this
  have hQ0 : pk.Q ≠ 0 := by have := ((hb.away_Q h2).rep hQ).1; simpa using this
  have key : (pk.P * pk.Q + pk.R * (pk.P + pk.Q) - 1) ^ 2 = 4 * pk.P * pk.Q * pk.R * (a + (pk.P + pk.Q + pk.R)) := by
    rw [← hga]
    simp only [getA]
    have h4 : pk.P * pk.Q * pk.R + pk.P * pk.Q * pk.R + (pk.P * pk.Q * pk.R + pk.P * pk.Q * pk.R) ≠ 0 := by
      have : pk.P * pk.Q * pk.R + pk.P * pk.Q * pk.R + (pk.P * pk.Q * pk.R + pk.P * pk.Q * pk.R) =
        4 * (pk.P * pk.Q * pk.R) := by ring
      rw [this]
      exact mul_ne_zero (four_ne_zero_of h2F) (mul_ne_zero (mul_ne_zero hP0 hQ0) hR)
    have h5 := mul_inv_cancel₀ h4
    generalize (pk.P * pk.Q * pk.R + pk.P * pk.Q * pk.R + (pk.P * pk.Q * pk.R + pk.P * pk.Q * pk.R))⁻¹ = i at *
    linear_combination -(pk.P * pk.Q + pk.R * (pk.P + pk.Q) - 1) ^ 2 * h5
  have key' := congrArg φ key
  simp only [map_pow, map_mul, map_add, map_sub, map_one, map_ofNat] at key'
  rcases diff_choice h2 hP hQ (r := ⟨φ pk.R, 1⟩) (Or.inr one_ne_zero) (by
    simp only [b0, b1, b2]
    linear_combination key') with h | h
  · exact ⟨P, -Q, hP, hQ.neg, hbn, fun _ => by rw [sub_neg_eq_add]; exact h⟩
  · exact ⟨P, Q, hP, hQ, hb, fun _ => h⟩

end valid

/-! ### The comparison -/

theorem leBytes_inj {n x y : ℕ} (hx : x < 256 ^ n) (hy : y < 256 ^ n) (h : leBytes n x = leBytes n y) : x = y := by
  rw [← leNat_leBytes n x hx, h, leNat_leBytes n y hy]

/-- The comparison looks at all of the real parts and the lower bits of the imaginary parts, in Montgomery form. -/
theorem sameBytes_iff (l : Level) (k : ℕ) (hk : 2 * (((tables l).nbits + 7) / 8) = 8 * (tables l).n + k)
    (hk' : k ≤ 8 * (tables l).n) (x y : l.F) : sameBytes l x y = true ↔ x.re = y.re ∧
      (x.im * 2 ^ (64 * (tables l).n)).val % 256 ^ k = (y.im * 2 ^ (64 * (tables l).n)).val % 256 ^ k := by
  have hR := R_ne_zero (Word.good l)
  have hlt : ∀ z : ZMod l.p, z.val < 256 ^ (8 * (tables l).n) := fun z =>
    (ZMod.val_lt z).trans (by cases l <;> decide +kernel)
  simp only [sameBytes, montBytes, decide_eq_true_eq, hk]
  have ht : ∀ a b : ℕ, (leBytes (8 * (tables l).n) a ++ leBytes (8 * (tables l).n) b).take (8 * (tables l).n + k) =
      leBytes (8 * (tables l).n) a ++ (leBytes (8 * (tables l).n) b).take k := by
    intro a b
    rw [List.take_append, leBytes_length, Nat.add_sub_cancel_left, List.take_of_length_le (by rw [leBytes_length]; omega)]
  rw [ht, ht]
  have hl : ∀ r, k ≤ (leBytes (8 * (tables l).n) r).length := fun r => by rw [leBytes_length]; exact hk'
  constructor
  · intro h
    obtain ⟨h1, h2⟩ := List.append_inj h (by rw [leBytes_length, leBytes_length])
    refine ⟨mul_right_cancel₀ hR (ZMod.val_injective _ (leBytes_inj (hlt _) (hlt _) h1)), ?_⟩
    have h3 := congrArg leNat h2
    rwa [leNat_take k _ (hl _), leNat_take k _ (hl _), leNat_leBytes _ _ (hlt _), leNat_leBytes _ _ (hlt _)] at h3
  · rintro ⟨h1, h2⟩
    rw [h1]
    congr 1
    apply leNat_inj
    · rw [List.length_take, List.length_take, leBytes_length, leBytes_length]
    · rwa [leNat_take k _ (hl _), leNat_take k _ (hl _), leNat_leBytes _ _ (hlt _), leNat_leBytes _ _ (hlt _)]

/-! ### Encoding of public keys -/

theorem decode_encodePk (l : Level) (t : Three l.F) : decodePk l (encodePk l t) = t := by
  have hw : ∀ v : l.F, (encode l v).real.length = (params l).fpBytes ∧ (encode l v).imag.length = (params l).fpBytes :=
    fun v => encode_wf l v
  have hc : ∀ (pre : Bytes) (v : l.F) (post : Bytes) (i : ℕ), pre.length = i →
      chunk l (pre ++ (flat (encode l v) ++ post)) i = encode l v := by
    intro pre v post i hi
    obtain ⟨h1, h2⟩ := hw v
    have e1 : (pre ++ (flat (encode l v) ++ post)).drop i = (encode l v).real ++ ((encode l v).imag ++ post) := by
      rw [← hi, List.drop_left, flat, List.append_assoc]
    simp only [chunk, ← List.drop_drop, e1]
    rw [← h1, List.take_left, List.drop_left, h1, ← h2, List.take_left]
  have hf : ∀ v : l.F, (flat (encode l v)).length = 2 * (params l).fpBytes := fun v => by
    rw [flat, List.length_append, (hw v).1, (hw v).2]; ring
  have c0 := hc [] t.P (flat (encode l t.Q) ++ flat (encode l t.R)) 0 rfl
  have c1 := hc (flat (encode l t.P)) t.Q (flat (encode l t.R)) _ (hf _)
  have c2 := hc (flat (encode l t.P) ++ flat (encode l t.Q)) t.R [] (2 * (2 * (params l).fpBytes))
    (by rw [List.length_append, hf, hf]; ring)
  rw [List.nil_append] at c0
  rw [List.append_nil] at c2
  simp only [decodePk, encodePk, List.append_assoc] at c0 c1 c2 ⊢
  rw [c0, c1, c2, decode_encode, decode_encode, decode_encode]

theorem encodePk_length (l : Level) (t : Three l.F) : (encodePk l t).length = 6 * (params l).fpBytes := by
  have hw : ∀ v : l.F, (encode l v).real.length = (params l).fpBytes ∧ (encode l v).imag.length = (params l).fpBytes :=
    fun v => encode_wf l v
  simp only [encodePk, flat, List.length_append, (hw _).1, (hw _).2]
  ring

end Secuer.Sidh
