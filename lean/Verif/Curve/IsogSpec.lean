import Verif.Curve.Models

/-!
# Specification of `Isogeny_A` and `Isogeny_B`
-/

namespace Secuer.Curve

open Secuer.Mont

variable {F K : Type} [Field F] [Field K] [DecidableEq K] [IsAlgClosed K] (φ : F →+* K)

/-- `gF` computes, on x-coordinates in `F`, the cyclic isogeny `gK` of degree `ℓ^n` from the curve `a` to the
curve `a'` with kernel generated by `P`. -/
structure FIsog (ℓ n : ℕ) (a a' : F) (gF : Pt F → Pt F) (gK : Pt K → Pt K) (P : (W (φ a)).Point)
    (b : Pt K) : Prop where
  cyc : Cyc ℓ n (φ a) (φ a') gK P b
  lift : ∀ q, gK (q.map φ) = (gF q).map φ
  defd : DefOver φ (ℓ ^ n) gK
  congr : ∀ p q, PEq p q → PEq (gF p) (gF q)
  /-- the isogeny does not lead to the quadratic twist -/
  sq : IsSquare (a + 2) → IsSquare (a' + 2)
  /-- which of the models of the target is produced -/
  norm : (ℓ = 2 → b = ⟨0, 1⟩ ∧ Norm2 gK P) ∧ (ℓ = 3 → Fix01 gK)

omit [IsAlgClosed K] [DecidableEq K] in
theorem OptPEq.refl (q : Option (Pt F)) : OptPEq q q := by
  cases q
  · trivial
  · exact PEq.refl _

theorem OptPEq.trans {a b c : Option (Pt F)} (h : OptPEq a b) (h' : OptPEq b c) : OptPEq a c := by
  cases a <;> cases b <;> cases c <;> simp only [OptPEq] at *
  exact PEq.trans h h'

theorem OptPEq.map {a b : Option (Pt F)} {f g : Pt F → Pt F} (h : OptPEq a b)
    (hfg : ∀ p q, PEq p q → PEq (f p) (g q)) : OptPEq (a.map f) (b.map g) := by
  cases a <;> cases b <;> simp only [OptPEq, Option.map] at *
  exact hfg _ _ h

section generic

variable {Cv Co : Type} {ops : StratOps F Cv Co}

theorem StratSem.full_congr (S : StratSem ops) (n : ℕ) : ∀ (A : F) (r p q : Pt F), PEq p q →
    PEq ((S.full n A r).2 p) ((S.full n A r).2 q) := by
  induction n with
  | zero => intro A r p q h; exact h
  | succ n ih => intro A r p q h; exact ih _ _ _ _ (S.f_congr _ _ _ h)

/-- The strategy loop followed by the last isogeny. -/
theorem loop_full (S : StratSem ops) (maxPts n : ℕ) {A : F} {r : Pt F} (q : Option (Pt F)) {cv : Cv}
    {strat : List ℕ} (hV : S.V (n + 1) A r) (hcv : S.CvOK A cv) (hctl : ctlRows maxPts n [] 0 strat = true) :
    ∃ s, stratRows ops maxPts n ⟨cv, r, q, [], 0, strat⟩ = some s ∧
      S.CvOK (S.full (n + 1) A r).1 (ops.get s.R).1 ∧
      OptPEq (q.map (S.full (n + 1) A r).2) (s.Q.map (ops.eval (ops.get s.R).2)) ∧
      PEq (S.textbook n A r q).2.1 s.R ∧ S.CvOK (S.textbook n A r q).1 s.cv ∧
      S.V 1 (S.textbook n A r q).1 (S.textbook n A r q).2.1 := by
  obtain ⟨s, h1, h2, h3, h4, h5⟩ := rows_refine S maxPts n A r q ⟨cv, r, q, [], 0, strat⟩ hV hcv
    (by rw [S.mulN_zero]; exact PEq.refl _) (by intro e he; simp at he) (OptPEq.refl _) (by simpa using hctl)
  obtain ⟨e1, e2⟩ := S.textbook_full n A r q
  obtain ⟨_, _, h6⟩ := S.step 0 _ _ h3
  rw [S.mulN_zero] at h6
  obtain ⟨h7, h8⟩ := h6 s.R h4
  refine ⟨s, h1, ?_, ?_, h4, h2, h3⟩
  · rw [e1]; exact h7
  · rw [e2]
    exact h5.map (fun p q hpq => (S.f_congr _ _ _ hpq).trans (h8 q))

end generic

theorem ac24ToAc_spec (h2 : (2 : F) ≠ 0) {A a c : F} (h : Is24 A a c) :
    (ac24ToAc a c).C ≠ 0 ∧ (ac24ToAc a c).A / (ac24ToAc a c).C = A := by
  obtain ⟨k, hk, rfl, rfl⟩ := h
  have h4 := four_ne_zero_of h2
  simp only [ac24ToAc]
  refine ⟨mul_ne_zero hk h4, ?_⟩
  field_simp; ring

theorem aa24ToAc_spec (h2 : (2 : F) ≠ 0) {A a c : F} (h : IsPM A a c) :
    (aa24ToAc a c).C ≠ 0 ∧ (aa24ToAc a c).A / (aa24ToAc a c).C = A := by
  obtain ⟨k, hk, rfl, rfl⟩ := h
  have h4 := four_ne_zero_of h2
  have e : k * (A + 2) + k * (A - 2) - (k * (A - 2) + k * (A - 2)) = 4 * k := by ring
  simp only [aa24ToAc, e]
  refine ⟨mul_ne_zero h4 hk, ?_⟩
  field_simp; ring

variable [DecidableEq F] {env : Env F}

theorem addOrderOf_two_pow_iff {G : Type} [AddMonoid G] {P : G} {n : ℕ} (hn : 0 < n) {ℓ : ℕ} (hℓ : ℓ.Prime) :
    addOrderOf P = ℓ ^ n ↔ ℓ ^ (n - 1) • P ≠ 0 ∧ ℓ ^ n • P = 0 := by
  obtain ⟨m, rfl⟩ : ∃ m, n = m + 1 := ⟨n - 1, by omega⟩
  have hf : Fact ℓ.Prime := ⟨hℓ⟩
  constructor
  · intro h
    refine ⟨?_, ?_⟩
    · intro h0
      have := addOrderOf_dvd_of_nsmul_eq_zero h0
      rw [h, Nat.add_sub_cancel, Nat.pow_dvd_pow_iff_le_right hℓ.one_lt] at this
      omega
    · rw [← h]; exact addOrderOf_nsmul_eq_zero P
  · rintro ⟨h1, h2⟩
    exact addOrderOf_eq_prime_pow h1 h2

/-- The 2-power strategy loop with a kernel not above `(0, 0)`. -/
theorem loopA (h2F : (2 : F) ≠ 0) (hG : env.toIsoParams.Good) {A : F} {r : Pt F} {P : (W (φ A)).Point}
    (q : Option (Pt F)) {cv : F × F} (hA : A ^ 2 ≠ 4) (hcv : Is24 A cv.1 cv.2) (hr : Rep (r.map φ) P)
    (hP : Good2 (2 * env.maxA) P) :
    ∃ s a' gF gK, stratRows opsA env.ptsA (env.maxA - 1) ⟨cv, r, q, [], 0, env.stratA⟩ = some s ∧
      (ac24ToAc (opsA.get s.R).1.1 (opsA.get s.R).1.2).C ≠ 0 ∧
      (ac24ToAc (opsA.get s.R).1.1 (opsA.get s.R).1.2).A /
        (ac24ToAc (opsA.get s.R).1.1 (opsA.get s.R).1.2).C = a' ∧
      OptPEq (q.map gF) (s.Q.map (opsA.eval (opsA.get s.R).2)) ∧
      FIsog φ 2 (2 * env.maxA) A a' gF gK P ⟨0, 1⟩ ∧ IsSquare (a' + 2) := by
  have hpos := hG.maxA_pos
  have hm : env.maxA - 1 + 1 = env.maxA := by omega
  have hP' : Good2 (2 * (env.maxA - 1 + 1)) P := by rw [hm]; exact hP
  obtain ⟨s, h1, h2, h3, _⟩ := loop_full (semA φ h2F) env.ptsA (env.maxA - 1) (A := A) (r := r) q (cv := cv)
    (strat := env.stratA) ⟨hA, P, hr, hP'⟩ hcv hG.ctlA
  obtain ⟨gK, c1, c2, c3, c4⟩ := semA_cyc φ h2F (env.maxA - 1) A r P hA hr hP'
  obtain ⟨e1, e2⟩ := ac24ToAc_spec h2F h2
  refine ⟨s, _, _, gK, h1, e1, e2, h3, ⟨?_, c2, by rw [pow_mul]; rw [hm] at c3; exact c3, ?_,
    fun _ => semA_sq φ h2F _ _ _, fun _ => ⟨rfl, c4⟩, fun h => by omega⟩, semA_sq φ h2F _ _ _⟩
  · rw [hm] at c1 ⊢; exact c1
  · exact fun p q h => (semA φ h2F).full_congr _ _ _ _ _ h

/-- What `Isogeny_A` computes, when its kernel argument has the right order. -/
theorem isogenyA_ok (h2F : (2 : F) ≠ 0) (hs : SqrtOK env) (hG : env.toIsoParams.Good) {E : Crv F}
    (hC : E.C ≠ 0) (hA : (E.A / E.C) ^ 2 ≠ 4) (h4 : Full4 (E.A / E.C)) (k : Pt F) (q : Option (Pt F))
    {P : (W (φ (E.A / E.C))).Point} (hk : Rep (k.map φ) P) :
    (addOrderOf P ≠ 2 ^ env.e2 → isogenyA env E k q = .ok none) ∧
    (addOrderOf P = 2 ^ env.e2 → ∃ E' q' gF gK, isogenyA env E k q = .ok (some (E', q', ⟨0, 1⟩)) ∧
      E'.C ≠ 0 ∧ OptPEq (q.map gF) q' ∧
      FIsog φ 2 env.e2 (E.A / E.C) (E'.A / E'.C) gF gK P ⟨0, 1⟩) := by
  have h2 := two_map φ h2F
  have hhalf := hG.halfA
  have hmaxpos := hG.maxA_pos
  have he2 : 0 < env.e2 := by omega
  have hub := allModelsUB_false hs h2F hA h4
  obtain ⟨hm1, hr1, hm2⟩ := changeModel_ok hs h2F hA h4
  have hT := xDBLe_rep' φ h2F (acToAac24_is24 E hC).1 hk (env.e2 - 1)
  -- the chosen model
  obtain ⟨i, hi⟩ : ∃ i, (if (xDBLe k (acToAac24 E).1 (acToAac24 E).2.2 (env.e2 - 1)).X = 0
      then (changeModel env E).1 else (changeModel env E).2) = i := ⟨_, rfl⟩
  have hiOK : ModelOK (E.A / E.C) i ∧ ((xDBLe k (acToAac24 E).1 (acToAac24 E).2.2 (env.e2 - 1)).X = 0 → i.r ≠ 0) ∧
      ((xDBLe k (acToAac24 E).1 (acToAac24 E).2.2 (env.e2 - 1)).X ≠ 0 → i.r = 0) := by
    by_cases h : (xDBLe k (acToAac24 E).1 (acToAac24 E).2.2 (env.e2 - 1)).X = 0
    · simp only [h, if_true] at hi
      rw [← hi]
      exact ⟨hm1, fun _ => hr1, fun h' => absurd h h'⟩
    · simp only [h, if_false] at hi
      rw [← hi, hm2]
      exact ⟨ModelOK.id hA, fun h' => absurd h' h, fun _ => rfl⟩
  obtain ⟨hiM, hi0, hi1⟩ := hiOK
  have hix := hiM.isoX φ hA
  obtain ⟨P₁, hP₁⟩ := exists_rep h2 hix.tgt (hix.hom.nz _ (xr_nz P))
  have hR : Rep ((evalIso i k).map φ) P₁ := by
    rw [map_evalIso]
    exact hP₁.peq (hix.hom.congr _ _ hk)
  have hmul : ∀ j : ℕ, Rep (isoK φ i (xr (j • P))) (j • P₁) := fun j =>
    hix.hom.nsmul h2 (rep_xr P) hP₁ j (rep_xr _)
  have hz : ∀ j : ℕ, j • P₁ = 0 ↔ j • P = 0 := by
    intro j
    rw [← (hmul j).Z_iff, hix.inj, (rep_xr (j • P)).Z_iff]
  have h24 : Is24 i.B (acToAac24 ⟨i.B, 1⟩).1 (acToAac24 ⟨i.B, 1⟩).2.2 := by
    have := (acToAac24_is24 (⟨i.B, 1⟩ : Crv F) one_ne_zero).1
    simpa using this
  have hT1 := xDBLe_rep' φ h2F h24 hR (env.e2 - 1)
  have hO := xDBL_rep h2 (is24_map φ h24) hT1
  rw [← map_xDBL] at hO
  set T1 := xDBLe (evalIso i k) (acToAac24 ⟨i.B, 1⟩).1 (acToAac24 ⟨i.B, 1⟩).2.2 (env.e2 - 1) with hT1def
  have hTZ : T1.Z = 0 ↔ 2 ^ (env.e2 - 1) • P = 0 := by
    rw [← hz, ← hT1.Z_iff]; simp
  have hOZ : (xDBL T1 (acToAac24 ⟨i.B, 1⟩).1 (acToAac24 ⟨i.B, 1⟩).2.2).Z = 0 ↔ 2 ^ env.e2 • P = 0 := by
    have h := hO.Z_iff
    rw [← mul_nsmul, ← pow_succ, Nat.sub_add_cancel he2, hz] at h
    rw [← h]; simp
  have hord := addOrderOf_two_pow_iff (P := P) he2 Nat.prime_two
  constructor
  · intro ho
    have hbad : T1.Z = 0 ∨ (xDBL T1 (acToAac24 ⟨i.B, 1⟩).1 (acToAac24 ⟨i.B, 1⟩).2.2).Z ≠ 0 := by
      rw [hTZ, ne_eq, hOZ]
      by_contra hn
      push Not at hn
      exact ho (hord.2 hn)
    simp only [isogenyA, hub, hi]
    simp only [← hT1def, hbad, if_true, Bool.false_eq_true, if_false]
  · intro ho
    obtain ⟨ho1, ho2⟩ := hord.1 ho
    have hok : ¬ (T1.Z = 0 ∨ (xDBL T1 (acToAac24 ⟨i.B, 1⟩).1 (acToAac24 ⟨i.B, 1⟩).2.2).Z ≠ 0) := by
      rw [hTZ, ne_eq, hOZ]
      push Not
      exact ⟨ho1, ho2⟩
    have hgood : Good2 env.e2 P₁ := by
      refine ⟨(hz _).2 ho2, fun _ => ⟨fun h => ho1 ((hz _).1 h), ?_⟩⟩
      intro hX
      have hX' : (isoK φ i (xr (2 ^ (env.e2 - 1) • P))).X = 0 := (hmul _).X_iff.2 hX
      simp only [isoK] at hX'
      have hu := hiM.u0
      cases hPe : 2 ^ (env.e2 - 1) • P with
      | zero => exact ho1 hPe
      | some x y hn =>
        rw [hPe] at hX' hT
        simp only [xr_some, mul_one] at hX'
        obtain ⟨hTz, hTx⟩ := (rep_some_iff hn _).1 hT
        have hx : x = φ i.r := by linear_combination hX'
        rw [hx] at hTx
        by_cases h0 : (xDBLe k (acToAac24 E).1 (acToAac24 E).2.2 (env.e2 - 1)).X = 0
        · rw [Pt.map_X, h0, map_zero] at hTx
          rcases mul_eq_zero.1 hTx.symm with h | h
          · exact hi0 h0 (by simpa using h)
          · exact hTz h
        · rw [hi1 h0, map_zero, zero_mul, Pt.map_X] at hTx
          exact h0 (by simpa using hTx)
    simp only [isogenyA, hub, hi]
    simp only [← hT1def, hok, Bool.false_eq_true, if_false]
    by_cases hodd : env.e2 % 2 = 1
    · simp only [hodd, if_true]
      have hk1 : env.e2 - 1 + 1 = env.e2 := by omega
      obtain ⟨x, ex, ec, hf2, hker2, P', hP', hg'⟩ := Good2.step2 h2 hix.tgt (k := env.e2 - 1) (P := P₁)
        (by rw [hk1]; exact hgood)
      obtain ⟨hx, hSz⟩ := map_aff_of_rep φ hT1 ex
      obtain ⟨x0, hx0⟩ : ∃ x0, aff T1 = x0 := ⟨_, rfl⟩
      rw [hx0] at hx
      subst hx
      have hcod : φ (2 - 4 * x0 ^ 2) = 2 - 4 * φ x0 ^ 2 := by simp [map_ofNat]
      have hev : ∀ p, PEq (f2 x0 p) (eval2isog p T1) := by
        intro p
        have := eval2isog_eq hSz p
        rw [← hx0]
        exact ⟨2 * T1.Z, mul_ne_zero h2F hSz, this.1, this.2⟩
      have hg2 : Is24 (2 - 4 * x0 ^ 2) (get2isog T1).1 (get2isog T1).2 := by
        rw [← hx0]; exact get2isog_is24 h2F hSz
      obtain ⟨P2, hP2rep, hP2f, hP2g, hcyc2⟩ : ∃ P2 : (W (φ (2 - 4 * x0 ^ 2))).Point,
          Rep ((eval2isog (evalIso i k) T1).map φ) P2 ∧ Rep (f2 (φ x0) (xr P₁)) P2 ∧ Good2 (2 * env.maxA) P2 ∧
          Cyc 2 1 (φ i.B) (φ (2 - 4 * x0 ^ 2)) (f2 (φ x0)) (2 ^ (env.e2 - 1) • P₁) ⟨0, 1⟩ := by
        rw [hcod]
        refine ⟨P', ?_, hP', ?_, ?_⟩
        · have h1 := hP'.peq (hf2.congr _ _ hR)
          rw [← map_f2] at h1
          exact h1.peq (PEq.map φ (hev _))
        · rw [show 2 * env.maxA = env.e2 - 1 by omega]; exact hg'
        · obtain ⟨x', hx', hcyc⟩ := cyc2 h2 hix.tgt (P := 2 ^ (env.e2 - 1) • P₁)
            (by rw [← mul_nsmul, ← pow_succ, hk1]; exact hgood.1) (hgood.2 he2).1 (hgood.2 he2).2
          rw [hx'] at ex
          simp only [Pt.mk.injEq, and_true] at ex
          rw [ex] at hcyc
          exact hcyc
      obtain ⟨s, a', gF, gK, hs1, hs2, hs3, hs4, hs5, hs6⟩ := loopA φ h2F hG
        ((q.map (evalIso i)).map (fun q => eval2isog q T1)) (cv := ((get2isog T1).1, (get2isog T1).2))
        (sq_ne_four_of_map φ hcyc2.tgt) hg2 hP2rep hP2g
      rw [hs1]
      simp only
      refine ⟨_, _, fun p => gF (f2 x0 (evalIso i p)), fun p => gK (f2 (φ x0) (isoK φ i p)), rfl, hs2, ?_, ?_⟩
      · refine OptPEq.trans ?_ hs4
        cases q with
        | none => trivial
        | some q => exact hs5.congr _ _ (hev _)
      · rw [hs3]
        have hc := Cyc.comp_known (m := 2 * env.maxA) h2 (P := P₁) (f := f2 (φ x0)) (b := ⟨0, 1⟩)
          (by rw [show 2 * env.maxA = env.e2 - 1 by omega]; exact hcyc2) hs5.cyc hP2f
        rw [hG.halfA.symm, hodd]
        have hci := Cyc.pre_iso h2 hix hc hP₁
        refine ⟨hci, ?_, ?_, ?_, fun _ => hs6, fun _ => ⟨rfl, ?_⟩, fun h => by omega⟩
        · intro p
          show gK (f2 (φ x0) (isoK φ i (p.map φ))) = _
          rw [← hs5.lift, map_f2, map_evalIso]; rfl
        · have hd := hs5.defd.comp φ ((defOver_f2 φ x0).comp φ (defOver_isoK φ i))
          rwa [one_mul, ← pow_succ'] at hd
        · intro p q' hpq
          refine hs5.congr _ _ (f2_congr _ ?_)
          obtain ⟨c, hc, h1, h3⟩ := hpq
          exact ⟨c, hc, by simp only [evalIso, h1, h3]; ring, by simp only [evalIso, h3]; ring⟩
        · exact Norm2.pre h2 (f := fun p => f2 (φ x0) (isoK φ i p)) hs5.cyc.src (hcyc2.hom.comp hix.hom) hs5.cyc hci
            (hs5.norm.1 rfl).2
    · simp only [hodd, if_false]
      have hev : 2 * env.maxA = env.e2 := by omega
      obtain ⟨s, a', gF, gK, hs1, hs2, hs3, hs4, hs5, hs6⟩ := loopA φ h2F hG (q.map (evalIso i))
        (cv := ((acToAac24 ⟨i.B, 1⟩).1, (acToAac24 ⟨i.B, 1⟩).2.2)) hiM.tgt h24 hR (by rw [hev]; exact hgood)
      rw [hs1]
      simp only
      refine ⟨_, _, fun p => gF (evalIso i p), fun p => gK (isoK φ i p), rfl, hs2, ?_, ?_⟩
      · refine OptPEq.trans ?_ hs4
        rw [Option.map_map]
        exact OptPEq.refl _
      · rw [hs3]
        rw [hev] at hs5
        have hci := Cyc.pre_iso h2 hix hs5.cyc hP₁
        refine ⟨hci, ?_, ?_, ?_, fun _ => hs6, fun _ => ⟨rfl, ?_⟩, fun h => by omega⟩
        · intro p
          show gK (isoK φ i (p.map φ)) = _
          rw [← hs5.lift, map_evalIso]; rfl
        · have hd := hs5.defd.comp φ (defOver_isoK φ i)
          rwa [one_mul] at hd
        · intro p q' hpq
          refine hs5.congr _ _ ?_
          obtain ⟨c, hc, h1, h3⟩ := hpq
          exact ⟨c, hc, by simp only [evalIso, h1, h3]; ring, by simp only [evalIso, h3]; ring⟩
        · exact Norm2.pre h2 (f := isoK φ i) hs5.cyc.src hix.hom hs5.cyc hci (hs5.norm.1 rfl).2

end Secuer.Curve
