import Verif.Curve.Cyc
import Verif.Curve.Tables
import Mathlib.RingTheory.MvPolynomial.Homogeneous
import Mathlib.Algebra.MvPolynomial.Monad

/-!
# The strategy loops compute isogenies with the given kernel

Instances of `StratSem` for the two strategy loops, and what the textbook chain they refine computes.
-/

namespace Secuer.Curve

open Secuer.Mont

variable {F K : Type} [Field F] [Field K] [DecidableEq K] [IsAlgClosed K] (φ : F →+* K)

/-- The map is given by two forms of degree `d` with coefficients in `F`: a rational function of the
x-coordinate, of degree at most `d`. -/
def DefOver (d : ℕ) (g : Pt K → Pt K) : Prop :=
  ∃ N D : MvPolynomial (Fin 2) F, N.IsHomogeneous d ∧ D.IsHomogeneous d ∧
    ∀ p, g p = ⟨N.eval₂ φ ![p.X, p.Z], D.eval₂ φ ![p.X, p.Z]⟩

open MvPolynomial in
omit [DecidableEq K] [IsAlgClosed K] in
theorem DefOver.comp {d e : ℕ} {f g : Pt K → Pt K} (hg : DefOver φ d g) (hf : DefOver φ e f) :
    DefOver φ (e * d) (fun p => g (f p)) := by
  obtain ⟨N, D, hN, hD, h⟩ := hg
  obtain ⟨N', D', hN', hD', h'⟩ := hf
  have hh : ∀ i, (![N', D'] i).IsHomogeneous e := fun i => by
    match i with
    | 0 => exact hN'
    | 1 => exact hD'
  refine ⟨bind₁ ![N', D'] N, bind₁ ![N', D'] D, hN.aeval _ hh, hD.aeval _ hh, fun p => ?_⟩
  have key : ∀ q : MvPolynomial (Fin 2) F, eval₂ φ ![p.X, p.Z] (bind₁ ![N', D'] q) =
      eval₂ φ ![(f p).X, (f p).Z] q := by
    intro q
    have := eval₂Hom_bind₁ φ ![p.X, p.Z] ![N', D'] q
    simp only [coe_eval₂Hom] at this
    rw [this]
    congr 1
    funext i
    match i with
    | 0 => simp [h']
    | 1 => simp [h']
  change g (f p) = _
  rw [h, key, key]

open MvPolynomial in
omit [DecidableEq K] [IsAlgClosed K] in
/-- Such a map commutes with the endomorphisms of `K` that fix `F`. -/
theorem DefOver.comm {d : ℕ} {g : Pt K → Pt K} (hg : DefOver φ d g) (σ : K →+* K)
    (hσ : ∀ a, σ (φ a) = φ a) (p : Pt K) : (g p).map σ = g (p.map σ) := by
  obtain ⟨N, D, -, -, h⟩ := hg
  have key : ∀ q : MvPolynomial (Fin 2) F, σ (eval₂ φ ![p.X, p.Z] q) =
      eval₂ φ ![(p.map σ).X, (p.map σ).Z] q := by
    intro q
    rw [hom_eval₂, show σ.comp φ = φ from RingHom.ext hσ]
    congr 1
    funext i
    match i with
    | 0 => rfl
    | 1 => rfl
  rw [h, h, Pt.map, key, key]

section

open MvPolynomial

private theorem hX (i : Fin 2) : (X i : MvPolynomial (Fin 2) F).IsHomogeneous 1 := isHomogeneous_X _ i
private theorem hC (c : F) (i : Fin 2) : (C c * X i : MvPolynomial (Fin 2) F).IsHomogeneous 1 := by
  simpa using (isHomogeneous_C (Fin 2) c).mul (isHomogeneous_X F i)

omit [DecidableEq K] [IsAlgClosed K] in
theorem defOver_f2 (x : F) : DefOver φ 2 (f2 (φ x)) := by
  refine ⟨X 0 * (C x * X 0 - X 1), X 1 * (X 0 - C x * X 1), (hX 0).mul ((hC x 0).sub (hX 1)),
    (hX 1).mul ((hX 0).sub (hC x 1)), fun p => ?_⟩
  simp [f2, eval₂_sub, mul_comm]
omit [DecidableEq K] [IsAlgClosed K] in
theorem defOver_f3 (x : F) : DefOver φ 3 (f3 (φ x)) := by
  refine ⟨X 0 * (C x * X 0 - X 1) ^ 2, X 1 * (X 0 - C x * X 1) ^ 2, (hX 0).mul (((hC x 0).sub (hX 1)).pow 2),
    (hX 1).mul (((hX 0).sub (hC x 1)).pow 2), fun p => ?_⟩
  simp [f3, eval₂_sub, mul_comm]
omit [DecidableEq K] [IsAlgClosed K] in
theorem defOver_f4 (x : F) : DefOver φ 4 (f4 (φ x)) := by
  refine ⟨X 0 * (C x * X 0 - X 1) ^ 2 * (C (x ^ 2 + 1) * X 0 - C (2 * x) * X 1),
    X 1 * (X 0 - C x * X 1) ^ 2 * (C (x ^ 2 + 1) * X 1 - C (2 * x) * X 0),
    ((hX 0).mul (((hC x 0).sub (hX 1)).pow 2)).mul ((hC _ 0).sub (hC _ 1)),
    ((hX 1).mul (((hX 0).sub (hC x 1)).pow 2)).mul ((hC _ 1).sub (hC _ 0)), fun p => ?_⟩
  simp only [f4, eval₂_sub, eval₂_mul, eval₂_pow, eval₂_X, eval₂_C, Matrix.cons_val_zero, Matrix.cons_val_one,
    show φ (x ^ 2 + 1) = φ x ^ 2 + 1 by simp, show φ (2 * x) = 2 * φ x by simp [map_ofNat]]
  congr 1 <;> ring

end

/-- The textbook chain with the last step: `n` steps from a generator `r` of order `ℓ^n`. -/
def StratSem.full {Cv Co : Type} {ops : StratOps F Cv Co} (S : StratSem ops) :
    (n : ℕ) → F → Pt F → F × (Pt F → Pt F)
  | 0, A, _ => (A, fun q => q)
  | n + 1, A, r =>
    let x := aff (S.mulN A r n)
    let t := S.full n (S.cod A x) (S.f x r)
    (t.1, fun q => t.2 (S.f x q))

theorem StratSem.textbook_full {Cv Co : Type} {ops : StratOps F Cv Co} (S : StratSem ops) (n : ℕ) :
    ∀ (A : F) (r : Pt F) (q : Option (Pt F)),
      (S.full (n + 1) A r).1 = S.cod (S.textbook n A r q).1 (aff (S.textbook n A r q).2.1) ∧
      q.map (S.full (n + 1) A r).2 =
        (S.textbook n A r q).2.2.map (S.f (aff (S.textbook n A r q).2.1)) := by
  induction n with
  | zero => intro A r q; simp [full, textbook, S.mulN_zero]
  | succ n ih =>
    intro A r q
    have := ih (S.cod A (aff (S.mulN A r (n + 1)))) (S.f (aff (S.mulN A r (n + 1))) r)
      (q.map (S.f (aff (S.mulN A r (n + 1)))))
    rw [show S.full (n + 1 + 1) A r = ((S.full (n + 1) (S.cod A (aff (S.mulN A r (n + 1))))
      (S.f (aff (S.mulN A r (n + 1))) r)).1, fun q => (S.full (n + 1) (S.cod A (aff (S.mulN A r (n + 1))))
      (S.f (aff (S.mulN A r (n + 1))) r)).2 (S.f (aff (S.mulN A r (n + 1))) q)) from rfl]
    refine ⟨this.1, ?_⟩
    have h2 := this.2
    rw [Option.map_map] at h2
    exact h2

omit [DecidableEq K] [IsAlgClosed K] in
theorem map_aff_of_rep {A : F} {k : Pt F} {P : (W (φ A)).Point} {x : K} (h : Rep (k.map φ) P)
    (hx : xr P = ⟨x, 1⟩) : φ (aff k) = x ∧ k.Z ≠ 0 := by
  unfold Rep at h; rw [hx] at h
  rw [map_aff, ← aff_congr h]
  refine ⟨by simp [aff], ?_⟩
  have := h.Z_iff
  intro hz
  rw [Pt.map_Z, hz, map_zero] at this
  exact one_ne_zero (this.1 rfl)

/-! ### The 2-power loop -/

theorem eval4_peq {x : F} (h2 : (2 : F) ≠ 0) {k : Pt F} (hz : k.Z ≠ 0) (hx : aff k = x) (p : Pt F) :
    PEq (f4 x p) (opsA.eval (opsA.get k).2 p) := by
  have h := eval4isog_eq hz p
  have h16 : (16 : F) ≠ 0 := by
    have : (16 : F) = 2 ^ 4 := by norm_num
    rw [this]; exact pow_ne_zero _ h2
  rw [← hx]
  exact ⟨16 * k.Z ^ 4, mul_ne_zero h16 (pow_ne_zero _ hz), h.1, h.2⟩

theorem mem_good_step (h2 : (2 : K) ≠ 0) {n : ℕ} {A : F} {r : Pt F} {P : (W (φ A)).Point}
    (h2F : (2 : F) ≠ 0) (hr : Rep (r.map φ) P) (hP : Good2 (2 * (n + 1)) P) :
    ∃ x : F, x = aff (xDBLe r (A + 2) 4 (2 * n)) ∧ (xDBLe r (A + 2) 4 (2 * n)).Z ≠ 0 ∧
      (4 * x ^ 4 - 2) ^ 2 ≠ 4 ∧ xr (2 ^ (2 * n) • P) = ⟨φ x, 1⟩ ∧
      ∃ hf : XHom (φ A) (φ (4 * x ^ 4 - 2)) (f4 (φ x)),
        ∃ P' : (W (φ (4 * x ^ 4 - 2))).Point, Rep ((f4 x r).map φ) P' ∧ Rep (f4 (φ x) (xr P)) P' ∧
          Good2 (2 * n) P' := by
  obtain ⟨x, e, hc, hf, _, P', hP', hg⟩ := Good2.step4 h2 (k := 2 * n) hP
  have hk := xDBLe_rep' φ h2F (is24_std A) hr (2 * n)
  obtain ⟨hx, hz⟩ := map_aff_of_rep φ hk e
  refine ⟨_, rfl, hz, ?_⟩
  set x0 := aff (xDBLe r (A + 2) 4 (2 * n))
  subst hx
  have hcod : φ (4 * x0 ^ 4 - 2) = 4 * φ x0 ^ 4 - 2 := by simp [map_ofNat]
  refine ⟨sq_ne_four_of_map φ (by rw [hcod]; exact hc), e, ?_⟩
  rw [hcod]
  refine ⟨hf, P', ?_, hP', hg⟩
  rw [map_f4]
  exact hP'.peq (hf.congr _ _ hr)

/-- The 2-power strategy loop. -/
def semA (h2F : (2 : F) ≠ 0) : StratSem (opsA (F := F)) where
  V n A r := A ^ 2 ≠ 4 ∧ ∃ P : (W (φ A)).Point, Rep (r.map φ) P ∧ Good2 (2 * n) P
  CvOK A cv := Is24 A cv.1 cv.2
  mulN A r m := xDBLe r (A + 2) 4 (2 * m)
  cod _ x := 4 * x ^ 4 - 2
  f := f4
  mulN_zero _ _ := rfl
  mulN_add A p a b := by rw [xDBLe_add, Nat.mul_add]
  mulN_congr A p q m h := xDBLe_congr _ _ _ h
  f_congr x p q h := f4_congr x h
  mul_eq A cv p m h := xDBLe_is24 h p _
  step n A r := by
    rintro ⟨hA, P, hr, hP⟩
    have h2 := two_map φ h2F
    obtain ⟨x, rfl, hz, hc, e, hf, P', hP', _, hg⟩ := mem_good_step φ h2 h2F hr hP
    refine ⟨⟨hc, P', hP', hg⟩, ?_, ?_⟩
    · intro m
      have r1 := xDBLe_rep' φ h2F (is24_std A) hr (2 * m)
      have r2 := xDBLe_rep' φ h2F (is24_std _) hP' (2 * m)
      have r3 : Rep ((f4 (aff (xDBLe r (A + 2) 4 (2 * n))) (xDBLe r (A + 2) 4 (2 * m))).map φ) (2 ^ (2 * m) • P') := by
        rw [map_f4]
        exact hf.nsmul h2 hr (by rw [← map_f4]; exact hP') _ r1
      exact peq_of_map φ ((nz_map φ).1 r3.nz) ((nz_map φ).1 r2.nz) (r3.unique r2)
    · intro k' hk'
      have hz' : k'.Z ≠ 0 := fun h => hz (hk'.Z_iff.1 h)
      have hx' : aff k' = aff (xDBLe r (A + 2) 4 (2 * n)) := (aff_congr hk').symm
      refine ⟨?_, fun p => eval4_peq h2F hz' hx' p⟩
      have := get4isog_is24 hz'
      rw [← hx']
      exact this

/-- The 2-power chain is an isogeny with kernel generated by the input point. -/
theorem semA_cyc (h2F : (2 : F) ≠ 0) (n : ℕ) : ∀ (A : F) (r : Pt F) (P : (W (φ A)).Point), A ^ 2 ≠ 4 →
    Rep (r.map φ) P → Good2 (2 * (n + 1)) P →
    ∃ gK, Cyc 2 (2 * (n + 1)) (φ A) (φ ((semA φ h2F).full (n + 1) A r).1) gK P ⟨0, 1⟩ ∧
      (∀ q, gK (q.map φ) = (((semA φ h2F).full (n + 1) A r).2 q).map φ) ∧ DefOver φ (4 ^ (n + 1)) gK ∧ Norm2 gK P := by
  have h2 := two_map φ h2F
  induction n with
  | zero =>
    intro A r P hA hr hP
    obtain ⟨x, e1, e2, e3, e4, _, _, _, _, _⟩ := mem_good_step φ h2 h2F hr hP
    have hcod : φ (4 * x ^ 4 - 2) = 4 * φ x ^ 4 - 2 := by simp [map_ofNat]
    have : (semA φ h2F).full 1 A r = (4 * x ^ 4 - 2, fun q => f4 x q) := by rw [e1]; rfl
    rw [this]
    suffices hcyc' : Cyc 2 (2 * (0 + 1)) (φ A) (φ (4 * x ^ 4 - 2)) (f4 (φ x)) P ⟨0, 1⟩ by
      refine ⟨f4 (φ x), hcyc', fun q => (map_f4 φ x q).symm, defOver_f4 φ x, ?_⟩
      simp only [zero_add, mul_one] at hcyc'
      rw [hcod] at hcyc'
      exact norm2_f4 h2 (by simpa using hP.1) (by simpa using (hP.2 (by norm_num)).1)
        (by simpa using (hP.2 (by norm_num)).2) hcyc'
    obtain ⟨x', hx', _, hcyc⟩ := cyc4 h2 (sq_ne_four_map φ hA) (P := P) (by simpa using hP.1)
      (by simpa using (hP.2 (by norm_num)).1) (by simpa using (hP.2 (by norm_num)).2)
    simp only [mul_zero, pow_zero, one_smul] at e4
    rw [hx'] at e4
    simp only [Pt.mk.injEq, and_true] at e4
    rw [e4] at hcyc
    simp only [zero_add, mul_one]
    rw [hcod]
    exact hcyc
  | succ n ih =>
    intro A r P hA hr hP
    obtain ⟨x, e1, e2, e3, e4, hf, P', hP', hP'', hg⟩ := mem_good_step φ h2 h2F hr hP
    have hcod : φ (4 * x ^ 4 - 2) = 4 * φ x ^ 4 - 2 := by simp [map_ofNat]
    obtain ⟨gK, hcyc, hgK, hdef, hnorm⟩ := ih _ _ P' e3 hP' hg
    have : (semA φ h2F).full (n + 1 + 1) A r = (((semA φ h2F).full (n + 1) (4 * x ^ 4 - 2) (f4 x r)).1,
      fun q => ((semA φ h2F).full (n + 1) (4 * x ^ 4 - 2) (f4 x r)).2 (f4 x q)) := by rw [e1]; rfl
    rw [this]
    suffices hcc : Cyc 2 (2 * (n + 1 + 1)) (φ A)
        (φ ((semA φ h2F).full (n + 1) (4 * x ^ 4 - 2) (f4 x r)).1) (fun p => gK (f4 (φ x) p)) P ⟨0, 1⟩ from
      ⟨fun p => gK (f4 (φ x) p), hcc, fun q => by simp only [← hgK, map_f4],
        by rw [pow_succ']; exact hdef.comp φ (defOver_f4 φ x),
        Norm2.pre h2 (sq_ne_four_map φ e3) hf hcyc hcc hnorm⟩
    have hP2 := hP.2 (by omega)
    have hkill := hP.1
    obtain ⟨x', hx', _, hc4⟩ := cyc4 h2 (sq_ne_four_map φ hA) (P := 2 ^ (2 * (n + 1)) • P)
      (by rw [← mul_nsmul, show 2 ^ (2 * (n + 1)) * 4 = 2 ^ (2 * (n + 1 + 1)) by ring]; exact hkill)
      (by rw [← mul_nsmul, ← pow_succ]; exact hP2.1)
      (by rw [← mul_nsmul, ← pow_succ]; exact hP2.2)
    rw [hx'] at e4
    simp only [Pt.mk.injEq, and_true] at e4
    rw [e4, ← hcod] at hc4
    have := Cyc.comp_known h2 hc4 hcyc hP''
    exact this

/-! ### The 3-power loop -/

theorem eval3_peq {x : F} (h2 : (2 : F) ≠ 0) {k : Pt F} (hz : k.Z ≠ 0) (hx : aff k = x) (p : Pt F) :
    PEq (f3 x p) (opsB.eval (opsB.get k).2 p) := by
  have h := eval3isog_eq hz p
  rw [← hx]
  exact ⟨4 * k.Z ^ 2, mul_ne_zero (four_ne_zero_of h2) (pow_ne_zero _ hz), h.1, h.2⟩

/-- `P` has order exactly `3^k`. -/
def Good3 {A : K} (k : ℕ) (P : (W A).Point) : Prop := 3 ^ k • P = 0 ∧ (0 < k → 3 ^ (k - 1) • P ≠ 0)

theorem mem_good3_step (h2 : (2 : K) ≠ 0) {n : ℕ} {A : F} {r : Pt F} {P : (W (φ A)).Point} (hA : A ^ 2 ≠ 4)
    (h2F : (2 : F) ≠ 0) (hr : Rep (r.map φ) P) (hP : Good3 (n + 1) P) :
    ∃ x : F, x = aff (xTPLe r (A - 2) (A + 2) n) ∧ (xTPLe r (A - 2) (A + 2) n).Z ≠ 0 ∧
      ((A * x - 6 * x ^ 2 + 6) * x) ^ 2 ≠ 4 ∧ xr (3 ^ n • P) = ⟨φ x, 1⟩ ∧
      3 * x ^ 4 + 4 * A * x ^ 3 + 6 * x ^ 2 - 1 = 0 ∧ x ≠ 0 ∧
      Cyc 3 1 (φ A) (φ ((A * x - 6 * x ^ 2 + 6) * x)) (f3 (φ x)) (3 ^ n • P) ⟨-1, 3 * φ x⟩ ∧
        ∃ P' : (W (φ ((A * x - 6 * x ^ 2 + 6) * x))).Point, Rep ((f3 x r).map φ) P' ∧
          Rep (f3 (φ x) (xr P)) P' ∧ Good3 n P' := by
  have hk := xTPLe_rep' φ h2F (isPM_std A) hr n
  have hn0 : 3 ^ n • P ≠ 0 := hP.2 (Nat.succ_pos _)
  have h30 : 3 • (3 ^ n • P) = 0 := by rw [← mul_nsmul, ← pow_succ]; exact hP.1
  obtain ⟨x, e, hq, hx0, hcyc⟩ := cyc3 h2 (sq_ne_four_map φ hA) h30 hn0
  obtain ⟨hx, hz⟩ := map_aff_of_rep φ hk e
  refine ⟨_, rfl, hz, ?_⟩
  set x0 := aff (xTPLe r (A - 2) (A + 2) n)
  subst hx
  have hcod : φ ((A * x0 - 6 * x0 ^ 2 + 6) * x0) = (φ A * φ x0 - 6 * φ x0 ^ 2 + 6) * φ x0 := by
    simp [map_ofNat]
  rw [← hcod] at hcyc
  refine ⟨sq_ne_four_of_map φ hcyc.tgt, e, ?_, ?_, hcyc, ?_⟩
  · apply φ.injective
    simpa [map_ofNat] using hq
  · intro h; apply hx0; rw [h, map_zero]
  obtain ⟨P', hP'⟩ := exists_rep h2 hcyc.tgt (hcyc.hom.nz _ (xr_nz P))
  refine ⟨P', ?_, hP', ?_, ?_⟩
  · rw [map_f3]; exact hP'.peq (hcyc.hom.congr _ _ hr)
  · have := hcyc.hom.nsmul h2 (rep_xr P) hP' (3 ^ n) (rep_xr _)
    rw [← this.Z_iff, hcyc.ker]
    exact AddSubgroup.mem_zmultiples _
  · intro hpos hz0
    have := hcyc.hom.nsmul h2 (rep_xr P) hP' (3 ^ (n - 1)) (rep_xr _)
    rw [← this.Z_iff, hcyc.ker] at hz0
    apply hn0
    have h31 : 3 • (3 ^ (n - 1) • P) = 3 ^ n • P := by
      rw [← mul_nsmul, ← pow_succ, Nat.sub_add_cancel hpos]
    rw [← h31]
    obtain ⟨k, hk⟩ := AddSubgroup.mem_zmultiples_iff.1 hz0
    rw [← hk, smul_comm, h30, smul_zero]

theorem get3_isPM' (h2F : (2 : F) ≠ 0) {A x : F} {k : Pt F} (hz : k.Z ≠ 0) (hx : aff k = x) (hx0 : x ≠ 0)
    (hq : 3 * x ^ 4 + 4 * A * x ^ 3 + 6 * x ^ 2 - 1 = 0) :
    IsPM ((A * x - 6 * x ^ 2 + 6) * x) (opsB.get k).1.1 (opsB.get k).1.2 := by
  have hkx : k.X ≠ 0 := by
    intro h; apply hx0; rw [← hx, aff, h, zero_div]
  subst hx
  exact get3isog_isPM h2F hz hkx hq

/-- The 3-power strategy loop. -/
def semB (h2F : (2 : F) ≠ 0) : StratSem (opsB (F := F)) where
  V n A r := A ^ 2 ≠ 4 ∧ ∃ P : (W (φ A)).Point, Rep (r.map φ) P ∧ Good3 n P
  CvOK A cv := IsPM A cv.1 cv.2
  mulN A r m := xTPLe r (A - 2) (A + 2) m
  cod A x := (A * x - 6 * x ^ 2 + 6) * x
  f := f3
  mulN_zero _ _ := rfl
  mulN_add A p a b := xTPLe_add _ _ _ _ _
  mulN_congr A p q m h := xTPLe_congr _ _ _ h
  f_congr x p q h := f3_congr x h
  mul_eq A cv p m h := xTPLe_isPM h p _
  step n A r := by
    rintro ⟨hA, P, hr, hP⟩
    have h2 := two_map φ h2F
    obtain ⟨x, rfl, hz, hc, e, hq, hx0, hcyc, P', hP', _, hg⟩ := mem_good3_step φ h2 hA h2F hr hP
    refine ⟨⟨hc, P', hP', hg⟩, ?_, ?_⟩
    · intro m
      have r1 := xTPLe_rep' φ h2F (isPM_std A) hr m
      have r2 := xTPLe_rep' φ h2F (isPM_std _) hP' m
      have r3 : Rep ((f3 (aff (xTPLe r (A - 2) (A + 2) n)) (xTPLe r (A - 2) (A + 2) m)).map φ) (3 ^ m • P') := by
        rw [map_f3]
        exact hcyc.hom.nsmul h2 hr (by rw [← map_f3]; exact hP') _ r1
      exact peq_of_map φ ((nz_map φ).1 r3.nz) ((nz_map φ).1 r2.nz) (r3.unique r2)
    · intro k' hk'
      have hz' : k'.Z ≠ 0 := fun h => hz (hk'.Z_iff.1 h)
      have hx' : aff k' = aff (xTPLe r (A - 2) (A + 2) n) := (aff_congr hk').symm
      exact ⟨get3_isPM' h2F hz' hx' hx0 hq, fun p => eval3_peq h2F hz' hx' p⟩

/-- x-coordinate of the kernel of the last step of the 3-power chain, and its curve. -/
def StratSem.last {Cv Co : Type} {ops : StratOps F Cv Co} (S : StratSem ops) (n : ℕ) (A : F) (r : Pt F) :
    F × Pt F := let t := S.textbook n A r none; (t.1, t.2.1)

omit [DecidableEq K] [IsAlgClosed K] in
/-- The x-coordinate of a point of order three is not one. -/
theorem three_ne_one (h2F : (2 : F) ≠ 0) {A x : F} (hA : A ^ 2 ≠ 4)
    (hq : 3 * x ^ 4 + 4 * A * x ^ 3 + 6 * x ^ 2 - 1 = 0) : φ x ≠ 1 := by
  intro h
  have hx : x = 1 := φ.injective (by rw [h, map_one])
  rw [hx] at hq
  apply hA
  have h4 := four_ne_zero_of h2F
  have : A + 2 = 0 := by
    apply mul_left_cancel₀ h4
    linear_combination hq
  linear_combination (A - 2) * this

/-- The 3-power chain is an isogeny with kernel generated by the input point; the direction back is given by
the kernel of its last step. -/
theorem semB_cyc (h2F : (2 : F) ≠ 0) (n : ℕ) : ∀ (A : F) (r : Pt F) (P : (W (φ A)).Point), A ^ 2 ≠ 4 →
    Rep (r.map φ) P → Good3 (n + 1) P →
    ∃ gK, Cyc 3 (n + 1) (φ A) (φ ((semB φ h2F).full (n + 1) A r).1) gK P
        ⟨-1, 3 * φ (aff ((semB φ h2F).last n A r).2)⟩ ∧
      (∀ q, gK (q.map φ) = (((semB φ h2F).full (n + 1) A r).2 q).map φ) ∧ DefOver φ (3 ^ (n + 1)) gK ∧ Fix01 gK := by
  have h2 := two_map φ h2F
  induction n with
  | zero =>
    intro A r P hA hr hP
    obtain ⟨x, e1, e2, e3, e4, hq, hx0, hcyc, _⟩ := mem_good3_step φ h2 hA h2F hr hP
    have : (semB φ h2F).full 1 A r = ((A * x - 6 * x ^ 2 + 6) * x, fun q => f3 x q) := by rw [e1]; rfl
    rw [this]
    have hx1 : φ x ≠ 1 := three_ne_one φ h2F hA hq
    refine ⟨f3 (φ x), ?_, fun q => (map_f3 φ x q).symm, defOver_f3 φ x,
      fix01_f3 (by simpa using hx0) hx1⟩
    have hl : aff ((semB φ h2F).last 0 A r).2 = x := by rw [e1]; rfl
    rw [hl]
    simpa using hcyc
  | succ n ih =>
    intro A r P hA hr hP
    obtain ⟨x, e1, e2, e3, e4, hq, hx0, hcyc, P', hP', hP'', hg⟩ := mem_good3_step φ h2 hA h2F hr hP
    obtain ⟨gK, hcyc', hgK, hdef, hfix⟩ := ih _ _ P' e3 hP' hg
    have hx1 : φ x ≠ 1 := three_ne_one φ h2F hA hq
    have : (semB φ h2F).full (n + 1 + 1) A r =
      (((semB φ h2F).full (n + 1) ((A * x - 6 * x ^ 2 + 6) * x) (f3 x r)).1,
      fun q => ((semB φ h2F).full (n + 1) ((A * x - 6 * x ^ 2 + 6) * x) (f3 x r)).2 (f3 x q)) := by
      rw [e1]; rfl
    rw [this]
    have hl : (semB φ h2F).last (n + 1) A r = (semB φ h2F).last n ((A * x - 6 * x ^ 2 + 6) * x) (f3 x r) := by
      rw [e1]; rfl
    rw [hl]
    refine ⟨fun p => gK (f3 (φ x) p), ?_, fun q => by simp only [← hgK, map_f3],
      by rw [pow_succ']; exact hdef.comp φ (defOver_f3 φ x),
      hfix.comp (fix01_f3 (by simpa using hx0) hx1) hcyc'.hom.congr⟩
    exact Cyc.comp_known h2 hcyc hcyc' hP''

/-- After a 4-isogeny `A + 2` is a square. -/
theorem semA_sq (h2F : (2 : F) ≠ 0) (n : ℕ) : ∀ (A : F) (r : Pt F),
    IsSquare (((semA φ h2F).full (n + 1) A r).1 + 2) := by
  induction n with
  | zero =>
    intro A r
    refine ⟨2 * (aff ((semA φ h2F).mulN A r 0)) ^ 2, ?_⟩
    change 4 * (aff ((semA φ h2F).mulN A r 0)) ^ 4 - 2 + 2 = _
    ring
  | succ n ih => intro A r; exact ih _ _

/-- A 3-isogeny changes `A + 2` by a square. -/
theorem semB_sq (h2F : (2 : F) ≠ 0) (n : ℕ) : ∀ (A : F) (r : Pt F) (P : (W (φ A)).Point), A ^ 2 ≠ 4 →
    Rep (r.map φ) P → Good3 n P → IsSquare (A + 2) → IsSquare (((semB φ h2F).full n A r).1 + 2) := by
  have h2 := two_map φ h2F
  induction n with
  | zero => intro A r P _ _ _ h; exact h
  | succ n ih =>
    intro A r P hA hr hP ⟨s, hs⟩
    obtain ⟨x, e1, e2, e3, e4, hq, hx0, hcyc, P', hP', hP'', hg⟩ := mem_good3_step φ h2 hA h2F hr hP
    have : (semB φ h2F).full (n + 1) A r =
      (((semB φ h2F).full n ((A * x - 6 * x ^ 2 + 6) * x) (f3 x r)).1,
      fun q => ((semB φ h2F).full n ((A * x - 6 * x ^ 2 + 6) * x) (f3 x r)).2 (f3 x q)) := by
      rw [e1]; rfl
    rw [this]
    refine ih _ _ P' e3 hP' hg ?_
    have hx1 : 1 - x ≠ 0 := by
      intro h
      have hx : x = 1 := by linear_combination -h
      rw [hx] at hq
      apply hA
      have h4 := four_ne_zero_of h2F
      have : 4 * (A + 2) = 0 := by linear_combination hq
      have hA2 : A = -2 := by
        rcases mul_eq_zero.1 this with h | h
        · exact absurd h h4
        · linear_combination h
      rw [hA2]; norm_num
    refine ⟨s * (1 + 3 * x) * x / (1 - x), ?_⟩
    have h4 := four_ne_zero_of h2F
    have hAx : A = (1 - 6 * x ^ 2 - 3 * x ^ 4) / (4 * x ^ 3) := by
      field_simp
      linear_combination hq
    have hss : s ^ 2 = A + 2 := by rw [hs]; ring
    have e : s * (1 + 3 * x) * x / (1 - x) * (s * (1 + 3 * x) * x / (1 - x)) =
        s ^ 2 * ((1 + 3 * x) ^ 2 * x ^ 2 / (1 - x) ^ 2) := by field_simp
    rw [e, hss, hAx]
    field_simp
    ring

end Secuer.Curve
