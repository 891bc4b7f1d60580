import Verif.Curve.Lift
import Verif.Curve.IsogSpecB
import Mathlib.FieldTheory.IsAlgClosed.AlgebraicClosure

/-!
# Properties C30-C39: curve arithmetic and isogenies

The specification is Mathlib's group of points of the Weierstrass curve `y² = x³ + A x² + x`, written `W A`
(the definition is one line in `Verif.Curve.Mont`), and the relation `IsX` below, which says what it means for
a pair `(X : Z)` to stand for the x-coordinate of a point.
-/

namespace Secuer.CurveProps

open Secuer.Curve Secuer.Mont

/-- `p` is a representative of the x-coordinate of the point: `(X : 0)` with `X ≠ 0` for the point at
infinity, `(x Z : Z)` with `Z ≠ 0` for `(x, y)`. In particular `(0 : 0)` stands for no point. -/
def IsX {K : Type} [Field K] {A : K} (p : Pt K) : (W A).Point → Prop
  | .zero => p.X ≠ 0 ∧ p.Z = 0
  | .some x _ _ => p.Z ≠ 0 ∧ p.X = x * p.Z

theorem isX_iff {K : Type} [Field K] {A : K} {p : Pt K} {P : (W A).Point} : IsX p P ↔ Rep p P := by
  cases P with
  | zero => exact (and_comm.trans (rep_zero_iff p).symm)
  | some x y h => exact (rep_some_iff h p).symm

/-- Two points with the same representative are equal up to sign; so `IsX` determines the point as well as an
x-coordinate can. -/
theorem isX_unique {K : Type} [Field K] {A : K} {p : Pt K} {P Q : (W A).Point} (h : IsX p P) (h' : IsX p Q) :
    P = Q ∨ P = -Q := (isX_iff.1 h).eq_or_neg (isX_iff.1 h')

example : IsX (A := (-1 : ℚ)) ⟨3, 3⟩ (.some 1 1 (W_nonsingular (by norm_num) (by norm_num) (by norm_num))) :=
  ⟨by norm_num, by norm_num⟩

section arithmetic

variable {K : Type} [Field K] [DecidableEq K] {A : K}

/-! ### C30: doubling -/

/-- `xDBL` with the constants `(A + 2 : 4)`, in any scaling, doubles. -/
theorem c30_xDBL (h2 : (2 : K) ≠ 0) {c : K} (hc : c ≠ 0) {p : Pt K} {P : (W A).Point} (hp : IsX p P) :
    IsX (xDBL p (c * (A + 2)) (c * 4)) (P + P) := by
  rw [isX_iff] at *
  have := xDBL_rep h2 ⟨c, hc, rfl, rfl⟩ hp
  rwa [two_smul] at this

/-- `xDBLe` multiplies by `2^e`, with the constants as computed by `AC_to_AAC24`. -/
theorem c30_xDBLe (h2 : (2 : K) ≠ 0) {E : Crv K} (hC : E.C ≠ 0) (e : ℕ) {p : Pt K}
    {P : (W (E.A / E.C)).Point} (hp : IsX p P) :
    IsX (xDBLe p (acToAac24 E).1 (acToAac24 E).2.2 e) (2 ^ e • P) := by
  rw [isX_iff] at *
  exact xDBLe_rep h2 (acToAac24_is24 E hC).1 e hp

example : ∃ P : (W (-1 : ℚ)).Point, IsX ⟨3, 3⟩ P ∧
    IsX (xDBL ⟨3, 3⟩ (5 * (-1 + 2)) (5 * 4)) (P + P) ∧ xDBL (⟨3, 3⟩ : Pt ℚ) (5 * (-1 + 2)) (5 * 4) = ⟨0, 6480⟩ :=
  ⟨.some 1 1 (W_nonsingular (by norm_num) (by norm_num) (by norm_num)), ⟨by norm_num, by norm_num⟩,
    c30_xDBL (by norm_num) (by norm_num) ⟨by norm_num, by norm_num⟩, by norm_num [xDBL]⟩

/-! ### C31: tripling -/

/-- `xTPL` with the constants `(A - 2 : A + 2)`, in any scaling, triples. -/
theorem c31_xTPL (h2 : (2 : K) ≠ 0) {c : K} (hc : c ≠ 0) {p : Pt K} {P : (W A).Point} (hp : IsX p P) :
    IsX (xTPL p (c * (A - 2)) (c * (A + 2))) (P + P + P) := by
  rw [isX_iff] at *
  have := xTPL_rep h2 ⟨c, hc, rfl, rfl⟩ hp
  rwa [show (3 : ℕ) • P = P + P + P by rw [succ_nsmul, two_nsmul]] at this

/-- `xTPLe` multiplies by `3^e`, with the constants as computed by `AC_to_AAC24`. -/
theorem c31_xTPLe (h2 : (2 : K) ≠ 0) {E : Crv K} (hC : E.C ≠ 0) (e : ℕ) {p : Pt K}
    {P : (W (E.A / E.C)).Point} (hp : IsX p P) :
    IsX (xTPLe p (acToAac24 E).2.1 (acToAac24 E).1 e) (3 ^ e • P) := by
  rw [isX_iff] at *
  exact xTPLe_rep h2 (acToAac24_is24 E hC).2 e hp

example : ∃ P : (W (-1 : ℚ)).Point, IsX ⟨3, 3⟩ P ∧
    IsX (xTPL ⟨3, 3⟩ (5 * (-1 - 2)) (5 * (-1 + 2))) (P + P + P) :=
  ⟨.some 1 1 (W_nonsingular (by norm_num) (by norm_num) (by norm_num)), ⟨by norm_num, by norm_num⟩,
    c31_xTPL (by norm_num) (by norm_num) ⟨by norm_num, by norm_num⟩⟩

/-! ### C32: differential addition and the ladder -/

/-- `xDBLADD` doubles its first argument and adds, given the difference. The constant `A24` is
`(A + 2) / 4`. -/
theorem c32_xDBLADD (h2 : (2 : K) ≠ 0) {P Q : (W A).Point} {p q : Pt K} (hp : IsX p P) (hq : IsX q Q)
    {d : Pt K} (hd : IsX d (P - Q)) (hdx : d.X ≠ 0) (hdz : d.Z ≠ 0) :
    IsX (xDBLADD p q d.X d.Z ((A + 2) / 4)).1 (P + P) ∧ IsX (xDBLADD p q d.X d.Z ((A + 2) / 4)).2 (P + Q) := by
  rw [isX_iff] at *
  have h4 := four_ne_zero_of h2
  have := xDBLADD_rep h2 (a24 := (A + 2) / 4) (by field_simp) hp hq hd hdx hdz
  rw [two_smul] at this
  rw [isX_iff]
  exact this

example : ∃ P : (W (-1 : ℚ)).Point, ∃ d : Pt ℚ, IsX ⟨3, 3⟩ P ∧ IsX d (P - (P + P)) ∧ d.X ≠ 0 ∧ d.Z ≠ 0 := by
  refine ⟨.some 1 1 (W_nonsingular (by norm_num) (by norm_num) (by norm_num)), ⟨1, 1⟩,
    ⟨by norm_num, by norm_num⟩, ?_, one_ne_zero, one_ne_zero⟩
  rw [sub_add_cancel_left]
  exact ⟨one_ne_zero, (mul_one _).symm⟩

/-- `Ladder` multiplies by the scalar, reduced to the number of bits processed. -/
theorem c32_ladder (h2 : (2 : K) ≠ 0) {P : (W A).Point} {p : Pt K} (hp : IsX p P) (hx : p.X ≠ 0)
    (hz : p.Z ≠ 0) (m bits : ℕ) : IsX (ladder p m A bits) ((m % 2 ^ bits) • P) := by
  rw [isX_iff] at *
  exact ladder_rep h2 hp hx hz m bits

example : ∃ P : (W (-1 : ℚ)).Point, IsX (⟨1, 1⟩ : Pt ℚ) P ∧
    IsX (ladder (⟨1, 1⟩ : Pt ℚ) 1000 (-1) 10) (1000 • P) :=
  ⟨.some 1 1 (W_nonsingular (by norm_num) (by norm_num) (by norm_num)), ⟨by norm_num, by norm_num⟩,
    c32_ladder (A := (-1 : ℚ)) (P := .some 1 1 (W_nonsingular (by norm_num) (by norm_num) (by norm_num)))
      (by norm_num) ⟨by norm_num, by norm_num⟩ (by norm_num) (by norm_num) 1000 10⟩

end arithmetic

section models

variable {F : Type} [Field F] [DecidableEq F] {env : Env F}

/-! ### C33: the six models -/

/-- The j-invariant of `y² = x³ + a x² + x`. -/
def jOf (a : F) : F := 256 * (a ^ 2 - 3) ^ 3 / (a ^ 2 - 4)

/-- All 2- and 4-torsion of the curve has rational x-coordinates: the curve has three rational points of order
two, and above each of the two other than `(0, 0)` a point of order four has rational x. -/
def Torsion4 (a : F) : Prop :=
  (∃ s, s * s = a ^ 2 - 4) ∧ ∀ x, x ^ 2 + a * x + 1 = 0 → ∃ s, s * s = x ^ 2 - 1

/-- Contract of the square root routine: it finds a root if there is one. -/
def GoodSqrt (sqrt : F → F) : Prop := ∀ s : F, sqrt (s * s) * sqrt (s * s) = s * s

theorem Torsion4.full4 {a : F} (h : Torsion4 a) : Full4 a := by
  obtain ⟨⟨s, hs⟩, h⟩ := h
  exact ⟨⟨s, hs.symm⟩, fun x hx => by obtain ⟨t, ht⟩ := h x hx; exact ⟨t, ht.symm⟩⟩

theorem GoodSqrt.ok (h : GoodSqrt env.sqrt) : SqrtOK env := by
  rintro x ⟨s, rfl⟩; exact h s

theorem jOf_eq_iff (h2 : (2 : F) ≠ 0) {a b : F} (ha : a ^ 2 ≠ 4) (hb : b ^ 2 ≠ 4) :
    jOf a = jOf b ↔ SameJ a b := by
  have := jInv_eq_iff h2 (A := a) (B := b) one_ne_zero one_ne_zero (by simpa using ha) (by simpa using hb)
  rw [jInv_eq h2 one_ne_zero, jInv_eq h2 one_ne_zero] at this
  simpa [jOf] using this

/-- `all_models` stays within its arrays and fills in six models of the curve. -/
theorem c33_models (hs : GoodSqrt env.sqrt) (h2 : (2 : F) ≠ 0) {E : Crv F} (hA : (E.A / E.C) ^ 2 ≠ 4)
    (h4 : Torsion4 (E.A / E.C)) :
    allModelsUB env E = false ∧ (allModels env E).length = 6 ∧
    ∀ i ∈ allModels env E, i.B ^ 2 ≠ 4 ∧ jOf i.B = jOf (E.A / E.C) :=
  ⟨allModelsUB_false hs.ok h2 hA h4.full4, rfl, fun i hi => by
    have h := allModels_ok hs.ok h2 hA h4.full4 i hi
    exact ⟨h.tgt, ((jOf_eq_iff h2 hA h.tgt).2 h.sameJ).symm⟩⟩

/-- Every Montgomery coefficient with the j-invariant of the curve is among the six. -/
theorem c33_complete (hs : GoodSqrt env.sqrt) (h2 : (2 : F) ≠ 0) {E : Crv F} (hA : (E.A / E.C) ^ 2 ≠ 4)
    (h4 : Torsion4 (E.A / E.C)) {b : F} (hb : b ^ 2 ≠ 4) (hj : jOf b = jOf (E.A / E.C)) :
    ∃ i ∈ allModels env E, i.B = b :=
  allModels_complete hs.ok h2 hA h4.full4 ((jOf_eq_iff h2 hA hb).1 hj.symm)

/-- The attached map is an isomorphism of groups, over any algebraically closed field. -/
theorem c33_map {K : Type} [Field K] [DecidableEq K] [IsAlgClosed K] (φ : F →+* K)
    (hs : GoodSqrt env.sqrt) (h2 : (2 : F) ≠ 0) {E : Crv F} (hA : (E.A / E.C) ^ 2 ≠ 4)
    (h4 : Torsion4 (E.A / E.C)) {i : Iso F} (hi : i ∈ allModels env E) :
    ∃ ψ : (W (φ (E.A / E.C))).Point ≃+ (W (φ i.B)).Point,
      ∀ p P, IsX (p.map φ) P → IsX ((evalIso i p).map φ) (ψ P) := by
  have h := (allModels_ok hs.ok h2 hA h4.full4 i hi).isoX φ hA
  obtain ⟨ψ, hsur, hr⟩ := XHom.exists_hom (two_map φ h2) h.src h.tgt h.hom h.surj
  have hinj : Function.Injective ψ := by
    rw [injective_iff_map_eq_zero]
    intro P hP
    have := hr P _ (rep_xr P)
    rw [← this.Z_iff, h.inj, (rep_xr P).Z_iff] at hP
    exact hP
  refine ⟨AddEquiv.ofBijective ψ ⟨hinj, hsur⟩, fun p P hp => ?_⟩
  rw [isX_iff] at *
  rw [map_evalIso]
  exact hr P _ hp

/-! ### C34: the canonical model -/

/-- Lexicographic order on the integers standing for the two components of a field element. -/
def LexLE (env : Env F) (a b : F) : Prop := env.re a < env.re b ∨ (env.re a = env.re b ∧ env.im a ≤ env.im b)

/-- `canonical_model` chooses the least of the six coefficients. -/
theorem c34_least (E : Crv F) : canonicalModel env E ∈ allModels env E ∧
    ∀ i ∈ allModels env E, LexLE env (canonicalModel env E).B i.B := by
  refine ⟨canonicalModel_mem E, fun i hi => ?_⟩
  have := canonicalModel_le E i hi
  rw [Prod.Lex.toLex_le_toLex] at this
  exact this

/-- `pack_curve` succeeds, depends on the j-invariant only, and its result has this j-invariant. -/
theorem c34_packCurve (hs : GoodSqrt env.sqrt) (h2 : (2 : F) ≠ 0)
    (hinj : ∀ a b : F, env.re a = env.re b → env.im a = env.im b → a = b) {E : Crv F}
    (hA : (E.A / E.C) ^ 2 ≠ 4) (h4 : Torsion4 (E.A / E.C)) :
    ∃ b, packCurve env E = .ok b ∧ b ^ 2 ≠ 4 ∧ jOf b = jOf (E.A / E.C) ∧
    ∀ E' : Crv F, (E'.A / E'.C) ^ 2 ≠ 4 → Torsion4 (E'.A / E'.C) →
      (packCurve env E' = .ok b ↔ jOf (E'.A / E'.C) = jOf (E.A / E.C)) := by
  have hp : ∀ {E : Crv F}, (E.A / E.C) ^ 2 ≠ 4 → Torsion4 (E.A / E.C) →
      packCurve env E = .ok (canonicalModel env E).B := fun hA h4 => by
    simp [packCurve, canonicalModelM, allModelsUB_false hs.ok h2 hA h4.full4]
  have hok := fun {E : Crv F} (hA : (E.A / E.C) ^ 2 ≠ 4) (h4 : Torsion4 (E.A / E.C)) =>
    (c33_models hs h2 hA h4).2.2 _ (canonicalModel_mem E)
  refine ⟨_, hp hA h4, (hok hA h4).1, (hok hA h4).2, fun E' hA' h4' => ?_⟩
  rw [hp hA' h4']
  constructor
  · intro h
    have h : (canonicalModel env E').B = (canonicalModel env E).B := by injection h
    rw [← (hok hA' h4').2, ← (hok hA h4).2, h]
  · intro h
    rw [canonicalModel_congr hs.ok h2 hinj hA' h4'.full4 hA h4.full4 ((jOf_eq_iff h2 hA' hA).1 h)]

/-! ### C35: the j-invariant -/

/-- `j_inv` computes the j-invariant of `y² = x³ + (A/C) x² + x`, as defined in Mathlib. -/
theorem c35_jInv (h2 : (2 : F) ≠ 0) {A C : F} (hC : C ≠ 0) :
    jInv A C = jOf (A / C) ∧ ∀ _ : (W (A / C)).IsElliptic, jInv A C = (W (A / C)).j :=
  ⟨jInv_eq h2 hC, fun _ => jInv_W h2 hC⟩

/-- It does not depend on the scaling. -/
theorem c35_scale (h2 : (2 : F) ≠ 0) {A C c : F} (hC : C ≠ 0) (hc : c ≠ 0) :
    jInv (c * A) (c * C) = jInv A C := by
  rw [(c35_jInv h2 hC).1, (c35_jInv h2 (mul_ne_zero hc hC)).1, mul_div_mul_left _ _ hc]

/-- It is the same for the six models of a curve. -/
theorem c35_models (hs : GoodSqrt env.sqrt) (h2 : (2 : F) ≠ 0) {E : Crv F} (hC : E.C ≠ 0)
    (hA : (E.A / E.C) ^ 2 ≠ 4) (h4 : Torsion4 (E.A / E.C)) {i : Iso F} (hi : i ∈ allModels env E) :
    jInv i.B 1 = jInv E.A E.C := by
  rw [(c35_jInv h2 hC).1, (c35_jInv h2 one_ne_zero).1, div_one]
  exact ((c33_models hs h2 hA h4).2.2 i hi).2

end models

/-! Examples for C33-C35: the curve with coefficient 4 over the field with 13 elements. -/

instance : Fact (Nat.Prime 13) := ⟨by decide +kernel⟩

/-- A small parameter set: one 4-isogeny and one 3-isogeny, no tables needed. -/
def toyIso : IsoParams := ⟨2, 1, 1, 1, 0, 0, [], []⟩

/-- Field of 13 elements with square roots found by search. -/
def toyEnv : Env (ZMod 13) where
  toIsoParams := toyIso
  sqrt x := ((List.range 13).find? (fun n => (n : ZMod 13) * n = x)).getD 0
  re := ZMod.val
  im := fun _ => 0

theorem toy_sqrt : GoodSqrt toyEnv.sqrt := by unfold GoodSqrt; decide +kernel

theorem toy_torsion : Torsion4 (4 : ZMod 13) := by unfold Torsion4; decide +kernel

example : (4 / 1 : ZMod 13) ^ 2 ≠ 4 ∧ Torsion4 (4 / 1 : ZMod 13) ∧ (2 : ZMod 13) ≠ 0 ∧
    (∀ a b : ZMod 13, toyEnv.re a = toyEnv.re b → toyEnv.im a = toyEnv.im b → a = b) := by
  rw [div_one]
  exact ⟨by decide, toy_torsion, by decide, fun a b h _ => ZMod.val_injective 13 h⟩

section isogenies

variable {F K : Type} [Field F] [Field K] [DecidableEq K] [IsAlgClosed K] (φ : F →+* K)

/-- `g` computes on x-coordinates (of points whose x-coordinate lies in `F`) an isogeny from the curve `a` to
the curve `a'` with kernel generated by `P`: a surjective homomorphism of the groups of points over the
algebraically closed field `K`. -/
def IsIsogeny (a a' : F) (g : Pt F → Pt F) (P : (W (φ a)).Point)
    (ψ : (W (φ a)).Point →+ (W (φ a')).Point) : Prop :=
  a' ^ 2 ≠ 4 ∧ Function.Surjective ψ ∧ ψ.ker = AddSubgroup.zmultiples P ∧
    ∀ q Q, IsX (q.map φ) Q → IsX ((g q).map φ) (ψ Q)

omit [DecidableEq K] [IsAlgClosed K] in
theorem aff_of_isX {a : F} {k : Pt F} {x : K} {P : (W (φ a)).Point} (hk : IsX (k.map φ) P)
    (hx : xr P = ⟨x, 1⟩) : k.Z ≠ 0 ∧ φ (k.X / k.Z) = x := by
  cases P with
  | zero => simp [xr] at hx
  | some x' y h =>
    simp only [xr_some, Pt.mk.injEq, and_true] at hx
    obtain ⟨h1, h2⟩ := hk
    simp only [Pt.map_Z, Pt.map_X, ne_eq, map_eq_zero] at h1 h2
    refine ⟨h1, ?_⟩
    have : φ k.Z ≠ 0 := by simpa using h1
    rw [map_div₀, h2, mul_div_cancel_right₀ _ this, hx]

/-! ### C36: 3-isogenies -/

/-- `get_3_isog` and `eval_3_isog` compute the isogeny with kernel `{0, P, -P}`, for every representative of
a point `P` of order 3. -/
theorem c36_three (h2F : (2 : F) ≠ 0) {a : F} (ha : a ^ 2 ≠ 4) {k : Pt F} {P : (W (φ a)).Point}
    (hk : IsX (k.map φ) P) (hP : addOrderOf P = 3) :
    ∃ a' c, c ≠ 0 ∧ (get3isog k).1 = c * (a' - 2) ∧ (get3isog k).2.1 = c * (a' + 2) ∧
      ∃ ψ, IsIsogeny φ a a' (fun q => eval3isog q (get3isog k).2.2.1 (get3isog k).2.2.2) P ψ := by
  have h2 := two_map φ h2F
  have h30 : 3 • P = 0 := by rw [← hP]; exact addOrderOf_nsmul_eq_zero P
  have hP0 : P ≠ 0 := by rintro rfl; rw [addOrderOf_zero] at hP; omega
  obtain ⟨x, e, hq, hx0, hcyc⟩ := cyc3 h2 (sq_ne_four_map φ ha) h30 hP0
  obtain ⟨hz, hx⟩ := aff_of_isX φ hk e
  set t := k.X / k.Z with ht
  subst hx
  have hcod : φ ((a * t - 6 * t ^ 2 + 6) * t) = (φ a * φ t - 6 * φ t ^ 2 + 6) * φ t := by
    simp [map_ofNat]
  have hkx : k.X ≠ 0 := fun h => hx0 (by rw [ht, h, zero_div, map_zero])
  have hqF : 3 * t ^ 4 + 4 * a * t ^ 3 + 6 * t ^ 2 - 1 = 0 := by
    apply φ.injective
    simpa [map_ofNat] using hq
  obtain ⟨c, hc, e1, e2⟩ := get3isog_isPM (A := a) h2F hz hkx hqF
  rw [← hcod] at hcyc
  obtain ⟨ψ, hs, hr, hker⟩ := hcyc.exists_hom h2
  refine ⟨_, c, hc, e1, e2, ψ, sq_ne_four_of_map φ hcyc.tgt, hs, hker, fun q Q hQ => ?_⟩
  rw [isX_iff] at *
  have := hr Q _ hQ
  rw [← map_f3] at this
  obtain ⟨k1, k2⟩ := eval3isog_eq hz q
  exact this.peq (PEq.map φ ⟨4 * k.Z ^ 2, mul_ne_zero (four_ne_zero_of h2F) (pow_ne_zero _ hz), k1, k2⟩)

/-! ### C37: 2- and 4-isogenies -/

/-- `get_2_isog` and `eval_2_isog` compute the isogeny with kernel `{0, P}`, for every representative of a
point `P ≠ (0, 0)` of order 2; the dual isogeny has kernel generated by `(0, 0)`. -/
theorem c37_two (h2F : (2 : F) ≠ 0) {a : F} (ha : a ^ 2 ≠ 4) {k : Pt F} {P : (W (φ a)).Point}
    (hk : IsX (k.map φ) P) (hP : addOrderOf P = 2) (hx : k.X ≠ 0) :
    ∃ a' c, c ≠ 0 ∧ (get2isog k).1 = c * (a' + 2) ∧ (get2isog k).2 = c * 4 ∧
      ∃ ψ, IsIsogeny φ a a' (fun q => eval2isog q k) P ψ ∧
        ∀ T : (W (φ a)).Point, T + T = 0 → T ∉ AddSubgroup.zmultiples P → IsX ⟨0, 1⟩ (ψ T) := by
  have h2 := two_map φ h2F
  have h30 : 2 • P = 0 := by rw [← hP]; exact addOrderOf_nsmul_eq_zero P
  have hP0 : P ≠ 0 := by rintro rfl; rw [addOrderOf_zero] at hP; omega
  have hX : (xr P).X ≠ 0 := by
    intro h
    have := (isX_iff.1 hk).X_iff.2 h
    simp only [Pt.map_X, map_eq_zero] at this
    exact hx this
  obtain ⟨x, e, hcyc⟩ := cyc2 h2 (sq_ne_four_map φ ha) h30 hP0 hX
  obtain ⟨hz, hx⟩ := aff_of_isX φ hk e
  set t := k.X / k.Z with ht
  subst hx
  have hcod : φ (2 - 4 * t ^ 2) = 2 - 4 * φ t ^ 2 := by simp [map_ofNat]
  obtain ⟨c, hc, e1, e2⟩ := get2isog_is24 h2F hz
  rw [← hcod] at hcyc
  obtain ⟨ψ, hs, hr, hker⟩ := hcyc.exists_hom h2
  refine ⟨_, c, hc, e1, e2, ψ, ⟨sq_ne_four_of_map φ hcyc.tgt, hs, hker, fun q Q hQ => ?_⟩, fun T hT hn => ?_⟩
  · rw [isX_iff] at *
    have := hr Q _ hQ
    rw [← map_f2] at this
    obtain ⟨k1, k2⟩ := eval2isog_eq hz q
    exact this.peq (PEq.map φ ⟨2 * k.Z, mul_ne_zero h2F hz, k1, k2⟩)
  · rw [isX_iff]
    exact (hr T _ (rep_xr T)).peq (hcyc.back T (by rw [two_nsmul]; exact hT) hn)

/-- `get_4_isog` and `eval_4_isog` compute the isogeny with kernel generated by `P`, for every representative
of a point `P` of order 4 with `2P ≠ (0, 0)`; the dual direction is `(0, 0)`. -/
theorem c37_four (h2F : (2 : F) ≠ 0) {a : F} (ha : a ^ 2 ≠ 4) {k : Pt F} {P : (W (φ a)).Point}
    (hk : IsX (k.map φ) P) (hP : addOrderOf P = 4) (hx : ¬ IsX ⟨0, 1⟩ (P + P)) :
    ∃ a' c, c ≠ 0 ∧ (get4isog k).1 = c * (a' + 2) ∧ (get4isog k).2.1 = c * 4 ∧
      ∃ ψ, IsIsogeny φ a a'
          (fun q => eval4isog q (get4isog k).2.2.1 (get4isog k).2.2.2.1 (get4isog k).2.2.2.2) P ψ ∧
        ∀ T : (W (φ a)).Point, T + T = 0 → T ∉ AddSubgroup.zmultiples P → IsX ⟨0, 1⟩ (ψ T) := by
  have h2 := two_map φ h2F
  have h40 : 4 • P = 0 := by rw [← hP]; exact addOrderOf_nsmul_eq_zero P
  have hP0 : 2 • P ≠ 0 := fun h => by
    have := Nat.le_of_dvd (by norm_num) (addOrderOf_dvd_of_nsmul_eq_zero h)
    omega
  have hX : (xr (2 • P)).X ≠ 0 := by
    intro h
    apply hx
    rw [isX_iff, ← two_nsmul]
    cases hh : 2 • P with
    | zero => exact absurd hh hP0
    | some x y hn =>
      rw [hh] at h
      simp only [xr_some] at h
      rw [rep_some_iff]
      exact ⟨one_ne_zero, by simp [h]⟩
  obtain ⟨x, e, hx0, hcyc⟩ := cyc4 h2 (sq_ne_four_map φ ha) h40 hP0 hX
  obtain ⟨hz, hx⟩ := aff_of_isX φ hk e
  set t := k.X / k.Z with ht
  subst hx
  have hcod : φ (4 * t ^ 4 - 2) = 4 * φ t ^ 4 - 2 := by simp [map_ofNat]
  obtain ⟨c, hc, e1, e2⟩ := get4isog_is24 hz
  rw [← hcod] at hcyc
  obtain ⟨ψ, hs, hr, hker⟩ := hcyc.exists_hom h2
  refine ⟨_, c, hc, e1, e2, ψ, ⟨sq_ne_four_of_map φ hcyc.tgt, hs, hker, fun q Q hQ => ?_⟩, fun T hT hn => ?_⟩
  · rw [isX_iff] at *
    have := hr Q _ hQ
    rw [← map_f4] at this
    obtain ⟨k1, k2⟩ := eval4isog_eq hz q
    have h16 : (16 : F) ≠ 0 := by
      have : (16 : F) = 2 ^ 4 := by norm_num
      rw [this]; exact pow_ne_zero _ h2F
    exact this.peq (PEq.map φ ⟨16 * k.Z ^ 4, mul_ne_zero h16 (pow_ne_zero _ hz), k1, k2⟩)
  · rw [isX_iff]
    exact (hr T _ (rep_xr T)).peq (hcyc.back T (by rw [two_nsmul]; exact hT) hn)

/-! Examples for C36 and C37, over the algebraic closure of the rational numbers. -/

noncomputable section

open Classical in
/-- A point of order 3 on the curve with coefficient `-863/256`. -/
theorem exists_order_three : ∃ P : (W (-863 / 256 : AlgebraicClosure ℚ)).Point,
    IsX ⟨4, 1⟩ P ∧ addOrderOf P = 3 := by
  let P : (W (-863 / 256 : AlgebraicClosure ℚ)).Point :=
    .some 4 (15 / 4) (W_nonsingular (by norm_num) (by norm_num) (by norm_num))
  have hP : IsX ⟨4, 1⟩ P := ⟨by norm_num, by norm_num⟩
  refine ⟨P, hP, addOrderOf_eq_prime (p := 3) ?_ ?_⟩
  · have := c31_xTPL (by norm_num) one_ne_zero hP
    rw [isX_iff] at this
    rw [show (3 : ℕ) • P = P + P + P by rw [succ_nsmul, two_nsmul], ← this.Z_iff]
    norm_num [xTPL]
  · intro h; rw [← (isX_iff.1 hP).Z_iff] at h; norm_num at h

open Classical in
/-- A point of order 2 other than `(0, 0)` on the curve with coefficient `-5/2`. -/
theorem exists_order_two : ∃ P : (W (-5 / 2 : AlgebraicClosure ℚ)).Point,
    IsX ⟨2, 1⟩ P ∧ addOrderOf P = 2 := by
  let P : (W (-5 / 2 : AlgebraicClosure ℚ)).Point :=
    .some 2 0 (W_nonsingular (by norm_num) (by norm_num) (by norm_num))
  have hP : IsX ⟨2, 1⟩ P := ⟨by norm_num, by norm_num⟩
  refine ⟨P, hP, addOrderOf_eq_prime (p := 2) ?_ ?_⟩
  · have := c30_xDBL (by norm_num) one_ne_zero hP
    rw [isX_iff] at this
    rw [two_nsmul, ← this.Z_iff]
    norm_num [xDBL]
  · intro h; rw [← (isX_iff.1 hP).Z_iff] at h; norm_num at h

open Classical in
/-- A point of order 4 not above `(0, 0)` on the curve with coefficient `-41/20`. -/
theorem exists_order_four : ∃ P : (W (-41 / 20 : AlgebraicClosure ℚ)).Point,
    IsX ⟨2, 1⟩ P ∧ addOrderOf P = 4 ∧ ¬ IsX ⟨0, 1⟩ (P + P) := by
  obtain ⟨P, hP⟩ := exists_rep (A := (-41 / 20 : AlgebraicClosure ℚ)) (by norm_num) (by norm_num)
    (p := ⟨2, 1⟩) (Or.inr one_ne_zero)
  have hd := xDBL_rep (by norm_num) (is24_std _) hP
  have hdd := xDBL_rep (by norm_num) (is24_std _) hd
  rw [← mul_nsmul, show 2 * 2 = 2 ^ (1 + 1) from rfl] at hdd
  have h2 : 2 • P ≠ 0 := by
    rw [ne_eq, ← hd.Z_iff]; norm_num [xDBL]
  refine ⟨P, isX_iff.2 hP, addOrderOf_eq_prime_pow (p := 2) (n := 1) (by simpa using h2) ?_, ?_⟩
  · rw [← hdd.Z_iff]; norm_num [xDBL]
  · rw [isX_iff, ← two_nsmul]
    intro h
    obtain ⟨c, hc, h1, h3⟩ := h.unique hd
    norm_num [xDBL] at h1

end

end isogenies

/-! ### C38: kernels of the wrong order -/

section chains

variable {F K : Type} [Field F] [Field K] [DecidableEq F] [DecidableEq K] [IsAlgClosed K] (φ : F →+* K)
variable {env : Env F}

/-- `b` is the image of `a` under `ψ`, for optional arguments. -/
def IsImage {a a' : F} (ψ : (W (φ a)).Point →+ (W (φ a')).Point) : Option (Pt F) → Option (Pt F) → Prop
  | none, none => True
  | some p, some q => ∀ Q, IsX (p.map φ) Q → IsX (q.map φ) (ψ Q)
  | _, _ => False

/-- Every pair except `(0 : 0)` is an x-coordinate of the curve, over the big field: the statements below
leave out no kernel candidate. -/
theorem isX_exists (h2F : (2 : F) ≠ 0) {a : F} (ha : a ^ 2 ≠ 4) (k : Pt F) (hk : k.X ≠ 0 ∨ k.Z ≠ 0) :
    ∃ P : (W (φ a)).Point, IsX (k.map φ) P := by
  obtain ⟨P, hP⟩ := exists_rep (A := φ a) (two_map φ h2F) (sq_ne_four_map φ ha) ((nz_map φ).2 hk)
  exact ⟨P, isX_iff.2 hP⟩

theorem FIsog.isImage {ℓ n : ℕ} {a a' : F} {gF : Pt F → Pt F} {gK : Pt K → Pt K} {P : (W (φ a)).Point}
    {b : Pt K} (h2F : (2 : F) ≠ 0) (h : FIsog φ ℓ n a a' gF gK P b) :
    ∃ ψ : (W (φ a)).Point →+ (W (φ a')).Point, IsIsogeny φ a a' gF P ψ ∧
      (∀ q q', OptPEq (q.map gF) q' → IsImage φ ψ q q') ∧
      ∀ T : (W (φ a)).Point, ℓ • T = 0 → T ∉ AddSubgroup.zmultiples P → IsX b (ψ T) := by
  obtain ⟨ψ, hs, hr, hker⟩ := h.cyc.exists_hom (two_map φ h2F)
  have key : ∀ q Q, IsX (q.map φ) Q → IsX ((gF q).map φ) (ψ Q) := fun q Q hQ => by
    rw [isX_iff] at *
    have := hr Q _ hQ
    rwa [h.lift] at this
  refine ⟨ψ, ⟨sq_ne_four_of_map φ h.cyc.tgt, hs, hker, key⟩, fun q q' hq => ?_, fun T hT hn => ?_⟩
  · cases q <;> cases q' <;> simp only [OptPEq, Option.map] at hq <;> try trivial
    intro Q hQ
    rw [isX_iff]
    exact (isX_iff.1 (key _ Q hQ)).peq (PEq.map φ hq)
  · rw [isX_iff]
    exact (hr T _ (rep_xr T)).peq (h.cyc.back T hT hn)

/-- `Isogeny_A` returns false exactly for kernel points of order other than `2^e2`. -/
theorem c38_A_rejects (h2F : (2 : F) ≠ 0) (hs : GoodSqrt env.sqrt) (hG : env.toIsoParams.Shipped) {E : Crv F}
    (hC : E.C ≠ 0) (hA : (E.A / E.C) ^ 2 ≠ 4) (h4 : Torsion4 (E.A / E.C)) (k : Pt F) (q : Option (Pt F))
    {P : (W (φ (E.A / E.C))).Point} (hk : IsX (k.map φ) P) :
    isogenyA env E k q = .ok none ↔ addOrderOf P ≠ 2 ^ env.e2 := by
  obtain ⟨h1, h2⟩ := isogenyA_ok φ h2F hs.ok hG.good hC hA h4.full4 k q (isX_iff.1 hk)
  refine ⟨fun h ho => ?_, h1⟩
  obtain ⟨_, _, _, _, e, _⟩ := h2 ho
  rw [e] at h; simp at h

/-- Otherwise it computes the isogeny with kernel generated by `P`, evaluates it at `q`, and sets `back` to the
image of the other points of order 2. -/
theorem c38_A_accepts (h2F : (2 : F) ≠ 0) (hs : GoodSqrt env.sqrt) (hG : env.toIsoParams.Shipped) {E : Crv F}
    (hC : E.C ≠ 0) (hA : (E.A / E.C) ^ 2 ≠ 4) (h4 : Torsion4 (E.A / E.C)) (k : Pt F) (q : Option (Pt F))
    {P : (W (φ (E.A / E.C))).Point} (hk : IsX (k.map φ) P) (hP : addOrderOf P = 2 ^ env.e2) :
    ∃ E' q' b g ψ, isogenyA env E k q = .ok (some (E', q', b)) ∧ E'.C ≠ 0 ∧
      IsIsogeny φ (E.A / E.C) (E'.A / E'.C) g P ψ ∧ IsImage φ ψ q q' ∧
      ∀ T : (W (φ (E.A / E.C))).Point, 2 • T = 0 → T ∉ AddSubgroup.zmultiples P → IsX (b.map φ) (ψ T) := by
  obtain ⟨E', q', gF, gK, e, hC', hq, hf⟩ :=
    (isogenyA_ok φ h2F hs.ok hG.good hC hA h4.full4 k q (isX_iff.1 hk)).2 hP
  obtain ⟨ψ, h1, h2, h3⟩ := FIsog.isImage φ h2F hf
  refine ⟨E', q', _, gF, ψ, e, hC', h1, h2 _ _ hq, fun T hT hn => ?_⟩
  have := h3 T hT hn
  simpa [Pt.map] using this

/-- `Isogeny_B` returns false exactly for kernel points of order other than `3^e3`, whatever random values
it draws. -/
theorem c38_B_rejects (h2F : (2 : F) ≠ 0) (hG : env.toIsoParams.Shipped) {E : Crv F}
    (hC : E.C ≠ 0) (hA : (E.A / E.C) ^ 2 ≠ 4) (wb : Bool) (k : Pt F) (q : Option (Pt F))
    {P : (W (φ (E.A / E.C))).Point} (hk : IsX (k.map φ) P) :
    (addOrderOf P ≠ 3 ^ env.e3 → ∀ t, isogenyB env wb E k q t = .ok (none, t)) ∧
    (addOrderOf P = 3 ^ env.e3 → ∀ t t', isogenyB env wb E k q t ≠ .ok (none, t')) := by
  obtain ⟨h1, h2⟩ := isogenyB_ok φ h2F hG.good hC hA wb k q (isX_iff.1 hk)
  refine ⟨fun h t => by rw [h1 h]; rfl, fun h t t' e => ?_⟩
  obtain ⟨E', q', _, _, b, _, _, _, _, hf, ht⟩ := h2 h
  cases wb with
  | false => rw [hf rfl] at e; cases e
  | true =>
    obtain ⟨b', hb, _⟩ := ht rfl t _ _ e
    cases hb

/-- Otherwise it never reads or writes out of bounds, and if it returns it has computed the isogeny with kernel
generated by `P` and evaluated it at `q`; `back`, if asked for, is the image of every other subgroup of
order 3. -/
theorem c38_B_accepts (h2F : (2 : F) ≠ 0) (hG : env.toIsoParams.Shipped) {E : Crv F}
    (hC : E.C ≠ 0) (hA : (E.A / E.C) ^ 2 ≠ 4) (wb : Bool) (k : Pt F) (q : Option (Pt F))
    {P : (W (φ (E.A / E.C))).Point} (hk : IsX (k.map φ) P) (hP : addOrderOf P = 3 ^ env.e3) :
    ∃ E' q' g ψ, E'.C ≠ 0 ∧ IsIsogeny φ (E.A / E.C) (E'.A / E'.C) g P ψ ∧ IsImage φ ψ q q' ∧
      (∀ t, isogenyB env wb E k q t ≠ .ub) ∧
      ∀ t r t', isogenyB env wb E k q t = .ok (r, t') → ∃ b, r = some (E', q', b) ∧ (b.isSome ↔ wb = true) ∧
        ∀ b' ∈ b, ∀ T : (W (φ (E.A / E.C))).Point, 3 • T = 0 → T ∉ AddSubgroup.zmultiples P →
          IsX (b'.map φ) (ψ T) := by
  obtain ⟨E', q', gF, gK, b, hC', hq, hf, hub, h0, h1⟩ :=
    (isogenyB_ok φ h2F hG.good hC hA wb k q (isX_iff.1 hk)).2 hP
  obtain ⟨ψ, i1, i2, i3⟩ := FIsog.isImage φ h2F hf
  refine ⟨E', q', gF, ψ, hC', i1, i2 _ _ hq, hub, fun t r t' e => ?_⟩
  cases wb with
  | false =>
    rw [h0 rfl] at e
    cases e
    exact ⟨none, rfl, by simp, by simp⟩
  | true =>
    obtain ⟨b', hb, hbb, _⟩ := h1 rfl t _ _ e
    refine ⟨some b', hb, by simp, fun b'' hb'' T hT hn => ?_⟩
    obtain rfl : b' = b'' := by simpa using hb''
    rw [isX_iff]
    exact (isX_iff.1 (i3 T hT hn)).peq (PEq.map φ hbb)

/-! Example for C38: points of the orders in question exist on every curve. -/

section orders

variable {K : Type} [Field K] [DecidableEq K] [IsAlgClosed K] {A : K}

open Polynomial in
theorem exists_half (h2 : (2 : K) ≠ 0) (hA : A ^ 2 ≠ 4) (P : (W A).Point) (hP : P ≠ 0) :
    ∃ Q : (W A).Point, 2 • Q = P := by
  cases P with
  | zero => exact absurd rfl hP
  | some x y h =>
    obtain ⟨t, ht⟩ := exists_eval_eq ((X ^ 2 - 1) ^ 2 : K[X]) (4 * X * (X ^ 2 + C A * X + 1))
      (by
        have e1 : ((X ^ 2 - 1) ^ 2 : K[X]).natDegree = 4 := by compute_degree!
        have e2 : (4 * X * (X ^ 2 + C A * X + 1) : K[X]).natDegree ≤ 3 := by compute_degree
        omega) x
    simp only [eval_mul, eval_pow, eval_sub, eval_add, eval_X, eval_one, eval_C, eval_ofNat] at ht
    obtain ⟨Q, hQ⟩ := exists_rep (A := A) h2 hA (p := ⟨t, 1⟩) (Or.inr one_ne_zero)
    have hd := xDBL_rep h2 (is24_std A) hQ
    have hr : Rep (xDBL ⟨t, 1⟩ (A + 2) 4) (.some x y h : (W A).Point) := by
      rw [rep_some_iff]
      refine ⟨fun hz => ?_, ?_⟩
      · have hn := hd.nz.resolve_right (not_not.2 hz)
        apply hn
        simp only [xDBL] at hz ⊢
        linear_combination 4 * ht + x * hz
      · simp only [xDBL]
        linear_combination 4 * ht
    rcases hd.eq_or_neg hr with e | e
    · exact ⟨Q, e⟩
    · exact ⟨-Q, by rw [smul_neg, e, neg_neg]⟩

open Polynomial in
theorem exists_third (h2 : (2 : K) ≠ 0) (hA : A ^ 2 ≠ 4) (P : (W A).Point) (hP : P ≠ 0) :
    ∃ Q : (W A).Point, 3 • Q = P := by
  cases P with
  | zero => exact absurd rfl hP
  | some x y h =>
    obtain ⟨t, ht⟩ := exists_eval_eq (X * (X ^ 4 - 6 * X ^ 2 - 4 * C A * X - 3) ^ 2 : K[X])
      ((3 * X ^ 4 + 4 * C A * X ^ 3 + 6 * X ^ 2 - 1) ^ 2)
      (by
        have e1 : (X * (X ^ 4 - 6 * X ^ 2 - 4 * C A * X - 3) ^ 2 : K[X]).natDegree = 9 := by compute_degree!
        have e2 : ((3 * X ^ 4 + 4 * C A * X ^ 3 + 6 * X ^ 2 - 1) ^ 2 : K[X]).natDegree ≤ 8 := by compute_degree
        omega) x
    simp only [eval_mul, eval_pow, eval_sub, eval_add, eval_X, eval_one, eval_C, eval_ofNat] at ht
    obtain ⟨Q, hQ⟩ := exists_rep (A := A) h2 hA (p := ⟨t, 1⟩) (Or.inr one_ne_zero)
    have hd := xTPL_rep h2 (isPM_std A) hQ
    have hr : Rep (xTPL ⟨t, 1⟩ (A - 2) (A + 2)) (.some x y h : (W A).Point) := by
      rw [rep_some_iff]
      refine ⟨fun hz => ?_, ?_⟩
      · have hn := hd.nz.resolve_right (not_not.2 hz)
        apply hn
        simp only [xTPL] at hz ⊢
        linear_combination 32 * ht + x * hz
      · simp only [xTPL]
        linear_combination 32 * ht
    rcases hd.eq_or_neg hr with e | e
    · exact ⟨Q, e⟩
    · exact ⟨-Q, by rw [smul_neg, e, neg_neg]⟩

theorem exists_order_pow {ℓ : ℕ} (hℓ : ℓ.Prime) (hdiv : ∀ P : (W A).Point, P ≠ 0 → ∃ Q, ℓ • Q = P)
    (P : (W A).Point) (hP : addOrderOf P = ℓ) (n : ℕ) : ∃ Q : (W A).Point, addOrderOf Q = ℓ ^ (n + 1) := by
  have : Fact ℓ.Prime := ⟨hℓ⟩
  suffices h : ∃ Q : (W A).Point, ℓ ^ n • Q = P by
    obtain ⟨Q, hQ⟩ := h
    refine ⟨Q, addOrderOf_eq_prime_pow ?_ ?_⟩
    · rw [hQ]; rintro rfl; rw [addOrderOf_zero] at hP; exact hℓ.one_lt.ne hP
    · rw [pow_succ, mul_nsmul, hQ, ← hP]; exact addOrderOf_nsmul_eq_zero P
  have hP0 : P ≠ 0 := by rintro rfl; rw [addOrderOf_zero] at hP; exact hℓ.one_lt.ne hP
  induction n with
  | zero => exact ⟨P, by simp⟩
  | succ n ih =>
    obtain ⟨Q, hQ⟩ := ih
    obtain ⟨R, hR⟩ := hdiv Q (by rintro rfl; rw [smul_zero] at hQ; exact hP0 hQ.symm)
    exact ⟨R, by rw [pow_succ, mul_comm, mul_nsmul, hR, hQ]⟩

end orders

noncomputable section

open Classical in
/-- The parameter set P434, over the algebraic closure of the rational numbers. -/
def qEnv : Env (AlgebraicClosure ℚ) where
  toIsoParams := iso434
  sqrt x := if h : ∃ s, s * s = x then h.choose else 0
  re _ := 0
  im _ := 0

theorem q_sqrt : GoodSqrt qEnv.sqrt := by
  intro s
  have h : ∃ t, t * t = s * s := ⟨s, rfl⟩
  simp only [qEnv, dif_pos h]
  exact h.choose_spec

theorem q_torsion (a : AlgebraicClosure ℚ) : Torsion4 a := by
  have : ∀ z : AlgebraicClosure ℚ, ∃ s, s * s = z := fun z => by
    obtain ⟨s, hs⟩ := IsAlgClosed.exists_pow_nat_eq z (n := 2) (by norm_num)
    exact ⟨s, by rw [← hs, sq]⟩
  exact ⟨this _, fun _ _ => this _⟩

open Classical in
/-- The hypotheses of C38 can be met: a kernel point of order `2^216`. -/
example : ∃ (E : Crv (AlgebraicClosure ℚ)) (k : Pt (AlgebraicClosure ℚ))
    (P : (W (RingHom.id (AlgebraicClosure ℚ) (E.A / E.C))).Point), E.C ≠ 0 ∧ (E.A / E.C) ^ 2 ≠ 4 ∧
    Torsion4 (E.A / E.C) ∧ IsX (k.map (RingHom.id _)) P ∧ addOrderOf P = 2 ^ qEnv.e2 ∧
    qEnv.toIsoParams.Shipped ∧ GoodSqrt qEnv.sqrt := by
  obtain ⟨P, _, hP⟩ := exists_order_two
  obtain ⟨Q, hQ⟩ := exists_order_pow Nat.prime_two (exists_half (by norm_num) (by norm_num)) P hP 215
  refine ⟨⟨-5, 2⟩, xr Q, Q, by norm_num, by norm_num, q_torsion _, ?_, hQ, Or.inl rfl, q_sqrt⟩
  rw [isX_iff]; exact rep_xr Q

open Classical in
/-- A kernel point of order `3^137`. -/
example : ∃ (E : Crv (AlgebraicClosure ℚ)) (k : Pt (AlgebraicClosure ℚ))
    (P : (W (RingHom.id (AlgebraicClosure ℚ) (E.A / E.C))).Point), E.C ≠ 0 ∧ (E.A / E.C) ^ 2 ≠ 4 ∧
    IsX (k.map (RingHom.id _)) P ∧ addOrderOf P = 3 ^ qEnv.e3 ∧ qEnv.toIsoParams.Shipped := by
  obtain ⟨P, _, hP⟩ := exists_order_three
  obtain ⟨Q, hQ⟩ := exists_order_pow Nat.prime_three (exists_third (by norm_num) (by norm_num)) P hP 136
  refine ⟨⟨-863, 256⟩, xr Q, Q, by norm_num, by norm_num, ?_, hQ, Or.inl rfl⟩
  rw [isX_iff]; exact rep_xr Q

end

/-! ### C39: strategies -/

/-- The textbook chain of `n` isogenies of degree `ℓ`, by the formulas of the code: multiply the kernel point
by `ℓ^n, ℓ^(n-1), …, ℓ`, take the isogeny with this kernel, and push the kernel point and `Q` through. -/
def naiveChain {F Cv Co : Type} (ops : StratOps F Cv Co) :
    (n : ℕ) → Cv → Pt F → Option (Pt F) → Cv × Pt F × Option (Pt F)
  | 0, cv, R, Q => (cv, R, Q)
  | n + 1, cv, R, Q =>
    let g := ops.get (ops.mul cv R (n + 1))
    naiveChain ops n g.1 (ops.eval g.2 R) (Q.map (ops.eval g.2))

theorem naive_refine {Cv Co : Type} {ops : StratOps F Cv Co} (S : StratSem ops) :
    ∀ (n : ℕ) (A : F) (r : Pt F) (q : Option (Pt F)) (cv : Cv) (R : Pt F) (Q : Option (Pt F)),
      S.V (n + 1) A r → S.CvOK A cv → PEq r R → OptPEq q Q →
      S.CvOK (S.textbook n A r q).1 (naiveChain ops n cv R Q).1 ∧
        PEq (S.textbook n A r q).2.1 (naiveChain ops n cv R Q).2.1 ∧
        OptPEq (S.textbook n A r q).2.2 (naiveChain ops n cv R Q).2.2 := by
  intro n
  induction n with
  | zero => intro A r q cv R Q _ h1 h2 h3; exact ⟨h1, h2, h3⟩
  | succ n ih =>
    intro A r q cv R Q hV hcv hR hQ
    obtain ⟨s1, _, s3⟩ := S.step (n + 1) A r hV
    obtain ⟨c1, c2⟩ := s3 (ops.mul cv R (n + 1))
      ((S.mulN_congr A _ _ _ hR).trans (S.mul_eq A cv R _ hcv))
    exact ih _ _ _ _ _ _ s1 c1 ((S.f_congr _ _ _ hR).trans (c2 R)) (optPEq_map S _ c2 hQ)

/-- Equal as points of the projective line, with neither equal to `(0 : 0)`. -/
def SameX (p q : Pt F) : Prop := ∃ c, c ≠ 0 ∧ q.X = c * p.X ∧ q.Z = c * p.Z

def SameXOpt : Option (Pt F) → Option (Pt F) → Prop
  | none, none => True
  | some p, some q => SameX p q
  | _, _ => False

omit [DecidableEq F] in
theorem optPEq_symm_trans {q a b : Option (Pt F)} (h : OptPEq q a) (h' : OptPEq q b) : SameXOpt a b := by
  cases q <;> cases a <;> cases b <;> simp only [OptPEq] at h h' <;> try trivial
  exact (PEq.symm h).trans h'

/-- The strategy loop of `Isogeny_A` with the tables of the code stays within its arrays and ends with the
values of the textbook chain of 4-isogenies, up to scaling. -/
theorem c39_A (h2F : (2 : F) ≠ 0) {pr : IsoParams} (hG : pr.Shipped) {a : F} (ha : a ^ 2 ≠ 4) {c : F}
    (hc : c ≠ 0) (R : Pt F) (Q : Option (Pt F)) {P : (W (φ a)).Point} (hR : IsX (R.map φ) P)
    (hP : addOrderOf P = 4 ^ pr.maxA) (h0 : ¬ IsX (⟨0, 1⟩ : Pt K) ((2 : ℕ) ^ (2 * pr.maxA - 1) • P)) :
    ∃ s, stratRows opsA pr.ptsA (pr.maxA - 1) ⟨(c * (a + 2), c * 4), R, Q, [], 0, pr.stratA⟩ = some s ∧
      SameX (naiveChain opsA (pr.maxA - 1) (c * (a + 2), c * 4) R Q).2.1 s.R ∧
      SameXOpt (naiveChain opsA (pr.maxA - 1) (c * (a + 2), c * 4) R Q).2.2 s.Q ∧
      ∃ a' k k', k ≠ 0 ∧ k' ≠ 0 ∧ s.cv = (k * (a' + 2), k * 4) ∧
        (naiveChain opsA (pr.maxA - 1) (c * (a + 2), c * 4) R Q).1 = (k' * (a' + 2), k' * 4) := by
  have hpos := hG.good.maxA_pos
  have hm : pr.maxA - 1 + 1 = pr.maxA := by omega
  have e4 : (4 : ℕ) ^ pr.maxA = 2 ^ (2 * pr.maxA) := by rw [pow_mul]; rfl
  rw [e4] at hP
  obtain ⟨o1, o2⟩ := (addOrderOf_two_pow_iff (P := P) (n := 2 * pr.maxA) (by omega) Nat.prime_two).1 hP
  have hV : (semA φ h2F).V (pr.maxA - 1 + 1) a R := by
    refine ⟨ha, P, isX_iff.1 hR, ?_⟩
    rw [hm]
    refine ⟨o2, fun _ => ⟨o1, fun hX => h0 ?_⟩⟩
    rw [isX_iff]
    cases hh : 2 ^ (2 * pr.maxA - 1) • P with
    | zero => exact absurd hh o1
    | some x y hn =>
      rw [hh] at hX
      simp only [xr_some] at hX
      rw [rep_some_iff]
      exact ⟨one_ne_zero, by simp [hX]⟩
  have hcv : (semA φ h2F).CvOK a (c * (a + 2), c * 4) := ⟨c, hc, rfl, rfl⟩
  obtain ⟨s, h1, h2, _, h4, h5⟩ := rows_refine (semA φ h2F) pr.ptsA (pr.maxA - 1) a R Q
    ⟨(c * (a + 2), c * 4), R, Q, [], 0, pr.stratA⟩ hV hcv (PEq.refl _) (by intro e he; simp at he)
    (OptPEq.refl _) hG.good.ctlA
  obtain ⟨n1, n2, n3⟩ := naive_refine (semA φ h2F) (pr.maxA - 1) a R Q _ R Q hV hcv (PEq.refl _) (OptPEq.refl _)
  obtain ⟨k, hk, k1, k2⟩ := h2
  obtain ⟨k', hk', k1', k2'⟩ := n1
  exact ⟨s, h1, (PEq.symm n2).trans h4, optPEq_symm_trans n3 h5, _, k, k', hk, hk',
    Prod.ext k1 k2, Prod.ext k1' k2'⟩

/-- The same for the loop of `Isogeny_B`. -/
theorem c39_B (h2F : (2 : F) ≠ 0) {pr : IsoParams} (hG : pr.Shipped) {a : F} (ha : a ^ 2 ≠ 4) {c : F}
    (hc : c ≠ 0) (R : Pt F) (Q : Option (Pt F)) {P : (W (φ a)).Point} (hR : IsX (R.map φ) P)
    (hP : addOrderOf P = 3 ^ pr.maxB) :
    ∃ s, stratRows opsB pr.ptsB (pr.maxB - 1) ⟨(c * (a - 2), c * (a + 2)), R, Q, [], 0, pr.stratB⟩ = some s ∧
      SameX (naiveChain opsB (pr.maxB - 1) (c * (a - 2), c * (a + 2)) R Q).2.1 s.R ∧
      SameXOpt (naiveChain opsB (pr.maxB - 1) (c * (a - 2), c * (a + 2)) R Q).2.2 s.Q ∧
      ∃ a' k k', k ≠ 0 ∧ k' ≠ 0 ∧ s.cv = (k * (a' - 2), k * (a' + 2)) ∧
        (naiveChain opsB (pr.maxB - 1) (c * (a - 2), c * (a + 2)) R Q).1 = (k' * (a' - 2), k' * (a' + 2)) := by
  have hpos := hG.good.maxB_pos
  have hm : pr.maxB - 1 + 1 = pr.maxB := by omega
  obtain ⟨o1, o2⟩ := (addOrderOf_two_pow_iff (P := P) (n := pr.maxB) hpos Nat.prime_three).1 hP
  have hV : (semB φ h2F).V (pr.maxB - 1 + 1) a R := by
    refine ⟨ha, P, isX_iff.1 hR, ?_⟩
    rw [hm]
    exact ⟨o2, fun _ => o1⟩
  have hcv : (semB φ h2F).CvOK a (c * (a - 2), c * (a + 2)) := ⟨c, hc, rfl, rfl⟩
  obtain ⟨s, h1, h2, _, h4, h5⟩ := rows_refine (semB φ h2F) pr.ptsB (pr.maxB - 1) a R Q
    ⟨(c * (a - 2), c * (a + 2)), R, Q, [], 0, pr.stratB⟩ hV hcv (PEq.refl _) (by intro e he; simp at he)
    (OptPEq.refl _) hG.good.ctlB
  obtain ⟨n1, n2, n3⟩ := naive_refine (semB φ h2F) (pr.maxB - 1) a R Q _ R Q hV hcv (PEq.refl _) (OptPEq.refl _)
  obtain ⟨k, hk, k1, k2⟩ := h2
  obtain ⟨k', hk', k1', k2'⟩ := n1
  exact ⟨s, h1, (PEq.symm n2).trans h4, optPEq_symm_trans n3 h5, _, k, k', hk, hk',
    Prod.ext k1 k2, Prod.ext k1' k2'⟩

open Classical in
/-- Kernel points as in `c39_B` exist (for `c39_A` see the example for C38). -/
example : ∃ P : (W (-863 / 256 : AlgebraicClosure ℚ)).Point, addOrderOf P = 3 ^ iso751.maxB := by
  obtain ⟨P, _, hP⟩ := exists_order_three
  exact exists_order_pow Nat.prime_three (exists_third (by norm_num) (by norm_num)) P hP 238

end chains

end Secuer.CurveProps
