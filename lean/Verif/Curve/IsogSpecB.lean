import Verif.Curve.RandSpec

/-!
# Specification of `Isogeny_B`
-/

namespace Secuer.Curve

open Secuer.Mont

theorem StratSem.textbook_last {F Cv Co : Type} [Field F] {ops : StratOps F Cv Co} (S : StratSem ops) (n : ℕ) :
    ∀ (A : F) (r : Pt F) (q q' : Option (Pt F)), (S.textbook n A r q).1 = (S.textbook n A r q').1 ∧
      (S.textbook n A r q).2.1 = (S.textbook n A r q').2.1 := by
  induction n with
  | zero => intro A r q q'; exact ⟨rfl, rfl⟩
  | succ n ih => intro A r q q'; exact ih _ _ _ _

variable {F K : Type} [Field F] [Field K] [DecidableEq F] [DecidableEq K] [IsAlgClosed K] (φ : F →+* K)
variable {env : Env F}

/-- A rational representative of a point killed by 3, over the big field. -/
theorem rep3_map (h2F : (2 : F) ≠ 0) {A : F} (hA : A ^ 2 ≠ 4) {b : Pt F} {X : (W A).Point} (hb : Rep b X)
    (h3 : 3 • X = 0) (h0 : X ≠ 0) :
    ∃ Y : (W (φ A)).Point, Rep (b.map φ) Y ∧ 3 • Y = 0 ∧ Y ≠ 0 := by
  have h2 := two_map φ h2F
  obtain ⟨Y, hY⟩ := exists_rep h2 (sq_ne_four_map φ hA) ((nz_map φ).2 hb.nz)
  refine ⟨Y, hY, ?_, ?_⟩
  · have h := xTPL_rep h2 (isPM_map φ (isPM_std A)) hY
    have h' := xTPL_rep h2F (isPM_std A) hb
    rw [← map_xTPL] at h
    rw [← h.Z_iff, Pt.map_Z, h'.Z_iff.2 h3, map_zero]
  · rw [ne_eq, ← hY.Z_iff, Pt.map_Z, map_eq_zero, hb.Z_iff]; exact h0

/-- The 3-power strategy loop. -/
theorem loopB (h2F : (2 : F) ≠ 0) (hG : env.toIsoParams.Good) {A : F} {r : Pt F} {P : (W (φ A)).Point}
    (q : Option (Pt F)) {cv : F × F} (hA : A ^ 2 ≠ 4) (hcv : IsPM A cv.1 cv.2) (hr : Rep (r.map φ) P)
    (hP : Good3 env.e3 P) :
    ∃ s a' gF gK b, stratRows opsB env.ptsB (env.maxB - 1) ⟨cv, r, q, [], 0, env.stratB⟩ = some s ∧
      (aa24ToAc (opsB.get s.R).1.1 (opsB.get s.R).1.2).C ≠ 0 ∧
      (aa24ToAc (opsB.get s.R).1.1 (opsB.get s.R).1.2).A /
        (aa24ToAc (opsB.get s.R).1.1 (opsB.get s.R).1.2).C = a' ∧
      OptPEq (q.map gF) (s.Q.map (opsB.eval (opsB.get s.R).2)) ∧
      FIsog φ 3 env.e3 A a' gF gK P (Pt.map φ b) ∧ Nz b ∧
      ((aa24ToAc s.cv.1 s.cv.2).A / (aa24ToAc s.cv.1 s.cv.2).C) ^ 2 ≠ 4 ∧
      (∀ b', (∃ X : (W ((aa24ToAc s.cv.1 s.cv.2).A / (aa24ToAc s.cv.1 s.cv.2).C)).Point,
          Rep b' X ∧ 3 • X = 0 ∧ X ≠ 0) → pointEqual b' s.R = false →
        PEq b (opsB.eval (opsB.get s.R).2 b')) ∧ Nz s.R ∧
      (aa24ToAc s.cv.1 s.cv.2).A / (aa24ToAc s.cv.1 s.cv.2).C = ((semB φ h2F).last (env.maxB - 1) A r).1 := by
  have h2 := two_map φ h2F
  have hpos := hG.maxB_pos
  have hm : env.maxB - 1 + 1 = env.e3 := by have := hG.maxB; omega
  have hP' : Good3 (env.maxB - 1 + 1) P := by rw [hm]; exact hP
  obtain ⟨s, h1, h2', h3, h4, h5, h6⟩ := loop_full (semB φ h2F) env.ptsB (env.maxB - 1) (A := A) (r := r) q
    (cv := cv) (strat := env.stratB) ⟨hA, P, hr, hP'⟩ hcv hG.ctlB
  obtain ⟨gK, c1, c2, c3, c4⟩ := semB_cyc φ h2F (env.maxB - 1) A r P hA hr hP'
  obtain ⟨e1, e2⟩ := aa24ToAc_spec h2F h2'
  obtain ⟨t1, t2⟩ := (semB φ h2F).textbook_last (env.maxB - 1) A r q none
  change _ = ((semB φ h2F).last (env.maxB - 1) A r).1 at t1
  change _ = ((semB φ h2F).last (env.maxB - 1) A r).2 at t2
  rw [t1] at h5 h6
  rw [t2] at h4 h6
  generalize (semB φ h2F).last (env.maxB - 1) A r = L at *
  obtain ⟨hA1, P1, hP1, hg1⟩ := h6
  obtain ⟨x, ex1, ex2, ex3, ex4, hq, hx0, hcyc, _⟩ := mem_good3_step φ h2 (n := 0) hA1 h2F hP1 (by simpa using hg1)
  change x = aff L.2 at ex1
  change L.2.Z ≠ 0 at ex2
  obtain ⟨_, ecv⟩ := aa24ToAc_spec h2F h5
  refine ⟨s, _, _, gK, ⟨-1, 3 * aff L.2⟩, h1, e1, e2, h3, ⟨?_, c2, by rw [hm] at c3; exact c3, ?_, 
    semB_sq φ h2F _ A r P hA hr hP', fun h => by omega, fun _ => c4⟩,
    Or.inl (by simp), ?_, ?_, h4.nz ((nz_map φ).1 hP1.nz), ecv⟩
  · rw [hm] at c1 ⊢
    have : Pt.map φ ⟨-1, 3 * aff L.2⟩ = ⟨-1, 3 * φ (aff L.2)⟩ := by simp [Pt.map, map_ofNat]
    rw [this]; exact c1
  · exact fun p q h => (semB φ h2F).full_congr _ _ _ _ _ h
  · rw [ecv]; exact hA1
  · rw [ecv]
    rintro b' ⟨X, hX, hX3, hX0⟩ hne
    obtain ⟨Y, hY, hY3, hY0⟩ := rep3_map φ h2F hA1 hX hX3 hX0
    have hsz : s.R.Z ≠ 0 := fun h => ex2 (h4.Z_iff.1 h)
    have hsx : aff s.R = x := by rw [ex1]; exact (aff_congr h4).symm
    refine PEq.trans ?_ (eval3_peq h2F hsz hsx b')
    have hnot : Y ∉ AddSubgroup.zmultiples ((3 : ℕ) ^ 0 • P1) := by
      rw [zmultiples_three (by simpa using hg1.1)]
      have key : ∀ Z : (W (φ L.1)).Point, Rep (L.2.map φ) Z → Y ≠ Z := by
        rintro Z hZ rfl
        have hh := peq_of_map φ hX.nz ((nz_map φ).1 hP1.nz) (hY.unique hZ)
        have := (hh.trans h4).cross
        simp only [pointEqual, projEqual, decide_eq_false_iff_not] at hne
        apply hne
        linear_combination this
      rintro (h | h | h)
      · exact hY0 h
      · rw [pow_zero, one_nsmul] at h; exact key _ hP1 h
      · rw [pow_zero, one_nsmul] at h; exact key _ hP1.neg h
    have hb := hcyc.back Y hY3 hnot
    have hb2 := PEq.trans (PEq.symm hb) (hcyc.hom.congr _ _ hY)
    rw [← map_f3] at hb2
    have e3 : (⟨-1, 3 * φ x⟩ : Pt K) = Pt.map φ ⟨-1, 3 * x⟩ := by simp [Pt.map, map_ofNat]
    rw [e3] at hb2
    rw [← ex1]
    exact peq_of_map φ (Or.inl (by simp)) ((nz_map φ).1 (hb2.nz ((nz_map φ).2 (Or.inl (by simp))))) hb2

/-- What `Isogeny_B` computes. -/
theorem isogenyB_ok (h2F : (2 : F) ≠ 0) (hG : env.toIsoParams.Good) {E : Crv F} (hC : E.C ≠ 0)
    (hA : (E.A / E.C) ^ 2 ≠ 4) (wb : Bool) (k : Pt F) (q : Option (Pt F))
    {P : (W (φ (E.A / E.C))).Point} (hk : Rep (k.map φ) P) :
    (addOrderOf P ≠ 3 ^ env.e3 → isogenyB env wb E k q = pure none) ∧
    (addOrderOf P = 3 ^ env.e3 → ∃ E' q' gF gK b, E'.C ≠ 0 ∧ OptPEq (q.map gF) q' ∧
      FIsog φ 3 env.e3 (E.A / E.C) (E'.A / E'.C) gF gK P (Pt.map φ b) ∧
      NoUB (isogenyB env wb E k q) ∧
      (wb = false → isogenyB env wb E k q = pure (some (E', q', none))) ∧
      (wb = true → Ret (isogenyB env wb E k q) (fun r => ∃ b', r = some (E', q', some b') ∧ PEq b b' ∧ Nz b'))) := by
  have h2 := two_map φ h2F
  have hmaxpos := hG.maxB_pos
  have he3 : 0 < env.e3 := by have := hG.maxB; omega
  obtain ⟨_, hpm⟩ := acToAac24_is24 E hC
  have hT := xTPLe_rep' φ h2F hpm hk (env.e3 - 1)
  have hO := xTPL_rep h2 (isPM_map φ hpm) hT
  rw [← map_xTPL] at hO
  set T1 := xTPLe k (acToAac24 E).2.1 (acToAac24 E).1 (env.e3 - 1) with hT1def
  have hTZ : T1.Z = 0 ↔ 3 ^ (env.e3 - 1) • P = 0 := by rw [← hT.Z_iff]; simp
  have hOZ : (xTPL T1 (acToAac24 E).2.1 (acToAac24 E).1).Z = 0 ↔ 3 ^ env.e3 • P = 0 := by
    have h := hO.Z_iff
    rw [← mul_nsmul, ← pow_succ, Nat.sub_add_cancel he3] at h
    rw [← h]; simp
  have hord := addOrderOf_two_pow_iff (P := P) he3 Nat.prime_three
  constructor
  · intro ho
    have hbad : T1.Z = 0 ∨ (xTPL T1 (acToAac24 E).2.1 (acToAac24 E).1).Z ≠ 0 := by
      rw [hTZ, ne_eq, hOZ]
      by_contra hn
      push Not at hn
      exact ho (hord.2 hn)
    simp only [isogenyB]
    simp only [← hT1def, hbad, if_true]
  · intro ho
    obtain ⟨ho1, ho2⟩ := hord.1 ho
    have hok : ¬ (T1.Z = 0 ∨ (xTPL T1 (acToAac24 E).2.1 (acToAac24 E).1).Z ≠ 0) := by
      rw [hTZ, ne_eq, hOZ]
      push Not
      exact ⟨ho1, ho2⟩
    obtain ⟨s, a', gF, gK, b, hs1, hs2, hs3, hs4, hs5, hsnz, hs6, hs7, -, -⟩ := loopB (env := env) φ h2F hG q hA
      (cv := ((acToAac24 E).2.1, (acToAac24 E).1)) hpm hk ⟨ho2, fun _ => ho1⟩
    refine ⟨_, _, gF, gK, b, hs2, hs4, ?_, ?_, ?_, ?_⟩
    · rw [hs3]; exact hs5
    · simp only [isogenyB]
      simp only [← hT1def, hok, if_false, hs1]
      cases wb
      · simp only [Bool.false_eq_true, if_false]
        exact NoUB.pure' _
      · simp only [if_true]
        refine NoUB.bind (F := F) ?_ (fun _ => True) (fun _ _ _ _ => trivial) (fun _ _ => NoUB.pure' _)
        intro t
        exact NoUB.bind (m := backLoop env _ s.R (t.pts.length + 1)) (k := fun b => pure (some b))
          (backLoop_noUB _ _ _) (fun _ => True) (fun _ _ _ _ => trivial) (fun _ _ => NoUB.pure' _) t
    · rintro rfl
      simp only [isogenyB]
      simp only [← hT1def, hok, if_false, hs1]
      rfl
    · rintro rfl
      simp only [isogenyB]
      simp only [← hT1def, hok, if_false, hs1, if_true]
      refine Ret.bind (Q := fun o => ∃ b', o = some b' ∧ PEq b (opsB.eval (opsB.get s.R).2 b')) ?_ ?_
      · intro t a t' h
        have := Ret.bind (m := backLoop env (fp2div (aa24ToAc s.cv.1 s.cv.2).A (aa24ToAc s.cv.1 s.cv.2).C) s.R
          (t.pts.length + 1)) (k := fun b => pure (some b))
          (R := fun o => ∃ b' : Pt F, o = some b' ∧ PEq b (opsB.eval (opsB.get s.R).2 b'))
          (backLoop_ret h2F (by rw [fp2div_eq]; exact hs6) s.R _)
          (fun b' hb' => Ret.pure ⟨b', rfl, by rw [fp2div_eq] at hb'; exact hs7 b' hb'.1 hb'.2⟩)
        exact this t a t' h
      · rintro _ ⟨b', rfl, hb'⟩
        exact Ret.pure ⟨_, rfl, hb', hb'.nz hsnz⟩

end Secuer.Curve
