import Verif.Curve.Can2
import Verif.Curve.WalkChain
import Verif.Curve.Cell

/-!
# Runs of the chain functions that succeed exist

Random chains can be generated on every supersingular curve of the right order, every chain that was generated can be packed,
and from every such curve there are packed chains of every length that the verifier's unpacking accepts.
-/

namespace Secuer.Curve

open Secuer.Mont

variable {F K : Type} [Field F] [DecidableEq F] [Field K] [DecidableEq K] [IsAlgClosed K]
variable {φ : F →+* K} {σ : K →+* K} {p : ℕ} {env : Env F}

/-- Torsion points are over `F`. -/
theorem Super.exists_repF (hS : Setting φ σ p env) {a : F} (ha : Super φ σ p a) {ℓ : ℕ} (hd : ℓ ∣ p + 1) {b : Pt F}
    {T : (W (φ a)).Point} (hT : Rep (b.map φ) T) (h0 : ℓ • T = 0) : ∃ B : (W a).Point, Rep b B := by
  have hk : (p + 1) • T = 0 := by
    obtain ⟨m, hm⟩ := hd
    rw [hm, mul_nsmul, h0, nsmul_zero]
  cases T with
  | zero =>
    refine ⟨0, (rep_zero_iff b).2 ?_⟩
    obtain ⟨h1, h2⟩ := (rep_zero_iff _).1 hT
    exact ⟨by simpa [Pt.map] using h1, by simpa [Pt.map] using h2⟩
  | some x y hn =>
    obtain ⟨x', y', rfl, rfl⟩ := ha.rational hS.frob (hn := hn) hk
    have hn' : (W a).Nonsingular x' y' := W_nonsingular hS.two ha.1 (by
      have := (W_equation _ _ _).1 hn.1
      apply φ.injective
      simpa using this)
    refine ⟨.some x' y' hn', ?_⟩
    obtain ⟨c, hc, e1, e2⟩ := hT.unique (rep_xr _)
    have hz : b.Z ≠ 0 := by
      have := hT.Z_iff (P := (.some (φ x') (φ y') hn))
      intro h
      exact (by simp : (.some (φ x') (φ y') hn : (W (φ a)).Point) ≠ 0) (this.1 (by simp [Pt.map, h]))
    refine (rep_xr (.some x' y' hn')).peq ?_
    refine peq_of_cross (xr_nz _) ?_ ?_
    · rw [← nz_map φ]; exact hT.nz
    · apply φ.injective
      simp only [xr, Pt.map] at e1 e2 ⊢
      rw [map_mul, map_mul, map_one, e1, e2]
      ring

theorem Setting.dvd1 (hS : Setting φ σ p env) {ℓ : ℕ} (hℓ : ℓ = 2 ∨ ℓ = 3) : ℓ ∣ p + 1 :=
  (dvd_pow_self ℓ (by have := expo_pos hS.good hℓ; omega)).trans (hS.dvd hℓ)

theorem AvOK.rat (hS : Setting φ σ p env) {ℓ : ℕ} (hℓ : ℓ = 2 ∨ ℓ = 3) {a : F} (ha : Super φ σ p a) {avoid : Option (Pt F)}
    {bo : Option (Pt K)} (h : AvOK φ ℓ a avoid bo) : ∀ b ∈ avoid, ∃ B : (W a).Point, Rep b B := by
  rcases h with ⟨rfl, _⟩ | ⟨av, b, rfl, _, hpe, T, hT, h0, _⟩
  · rintro _ ⟨⟩
  · rintro _ ⟨rfl⟩
    exact ha.exists_repF hS (hS.dvd1 hℓ) (hT.peq hpe) h0

/-- A kernel point can be drawn that avoids the direction back. -/
theorem kernel_can (hS : Setting φ σ p env) (h3F : (3 : F) ≠ 0) {ℓ : ℕ} (hℓ : ℓ = 2 ∨ ℓ = 3) (he : expo env ℓ ≤ 9998) {E : Crv F}
    {a : F} (hE : On E a) (ha : Super φ σ p a) {avoid : Option (Pt F)} {bo : Option (Pt K)} (hav : AvOK φ ℓ a avoid bo) :
    Can (randomPointAB env E ℓ avoid) (fun k => ∃ P : (W (φ a)).Point,
      Rep (k.map φ) P ∧ addOrderOf P = ℓ ^ (if ℓ = 2 then env.e2 else env.e3) ∧
      ∀ b ∈ avoid, ∀ T : (W (φ a)).Point, Rep (b.map φ) T → ℓ • T = 0 → T ≠ 0 → T ∉ AddSubgroup.zmultiples P) := by
  have h := (randomPointAB_can hS h3F (hE.super ha) hℓ he avoid (by rw [hE.2]; exact hav.rat hS hℓ ha)).and
    (randomPointAB_K hS hE ha hℓ avoid).2
  exact h.mono fun _ h => h.2

theorem isogenyB_can' (hS : Setting φ σ p env) (h3F : (3 : F) ≠ 0) (he : env.e3 ≤ 9998) {E : Crv F} {a : F} (hE : On E a)
    (ha : Super φ σ p a) {k : Pt F} {P : (W (φ a)).Point} (hk : Rep (k.map φ) P) (ho : addOrderOf P = 3 ^ env.e3) :
    Can (isogenyB env true E k none) (fun _ => True) := by
  obtain ⟨hC, rfl⟩ := hE
  exact isogenyB_can hS h3F he hC ha k none hk ho

/-! ### Random chains -/

theorem chainALoop_can (hS : Setting φ σ p env) (h3F : (3 : F) ≠ 0) (h3 : (3 : K) ≠ 0) (he : env.e2 ≤ 9998) : ∀ (n : ℕ)
    (E : Crv F) (avoid : Option (Pt F)) (bo : Option (Pt K)) (a : F), On E a → Super φ σ p a → AvOK φ 2 a avoid bo →
    Can (chainALoop env E avoid n) (fun _ => True)
  | 0, E, avoid, bo, a, hE, ha, hav => by
    unfold chainALoop
    exact Can.pure trivial
  | n + 1, E, avoid, bo, a, hE, ha, hav => by
    unfold chainALoop
    refine (kernel_can hS h3F (ℓ := 2) (Or.inl rfl) he hE ha hav).bind ?_
    rintro k ⟨P, hk, ho, hP⟩
    rw [if_pos rfl] at ho
    obtain ⟨E', q', gF, gK, hrun, hC, _, kg⟩ := runA hS hE ha hk ho none
    rw [hrun, lift_ok_bind]
    simp only
    have htors := kg.back_tors (two_map φ hS.two) h3 (Or.inl rfl)
    refine (chainALoop_can hS h3F h3 he n E' (some ⟨0, 1⟩) (some ⟨0, 1⟩) _ ⟨hC, rfl⟩ (kg.super hS ha)
      (Or.inr ⟨⟨0, 1⟩, ⟨0, 1⟩, rfl, rfl, by rw [map_zero_one]; exact PEq.refl _, htors⟩)).bind ?_
    rintro ⟨Ps, Es⟩ _
    exact Can.pure trivial

theorem chainBLoop_can (hS : Setting φ σ p env) (h3F : (3 : F) ≠ 0) (h3 : (3 : K) ≠ 0) (he : env.e3 ≤ 9998) : ∀ (n : ℕ)
    (E : Crv F) (avoid : Option (Pt F)) (bo : Option (Pt K)) (a : F), On E a → Super φ σ p a → AvOK φ 3 a avoid bo →
    Can (chainBLoop env E avoid n) (fun _ => True)
  | 0, E, avoid, bo, a, hE, ha, hav => by
    unfold chainBLoop
    exact Can.pure trivial
  | n + 1, E, avoid, bo, a, hE, ha, hav => by
    unfold chainBLoop
    refine (kernel_can hS h3F (ℓ := 3) (Or.inr rfl) he hE ha hav).bind ?_
    rintro k ⟨P, hk, ho, hP⟩
    rw [if_neg (by norm_num)] at ho
    obtain ⟨E', q', gF, gK, b, hC, _, kg, hub, _, hret⟩ := runB hS hE ha true hk ho none
    have hcan := isogenyB_can' hS h3F he hE ha hk ho
    refine (hcan.and (hret rfl)).bind ?_
    rintro _ ⟨_, b', rfl, hb, hbnz⟩
    simp only
    have htors := kg.back_tors (two_map φ hS.two) h3 (Or.inr rfl)
    refine (chainBLoop_can hS h3F h3 he n E' (some b') (some (b.map φ)) _ ⟨hC, rfl⟩ (kg.super hS ha)
      (Or.inr ⟨b', _, rfl, rfl, PEq.map φ hb, htors⟩)).bind ?_
    rintro ⟨Ps, Es⟩ _
    exact Can.pure trivial

theorem randomChainA_can (hS : Setting φ σ p env) (h3F : (3 : F) ≠ 0) (h3 : (3 : K) ≠ 0) (he : env.e2 ≤ 9998) (n : ℕ) {E : Crv F}
    {a : F} (hE : On E a) (ha : Super φ σ p a) : Can (randomChainA env n E) (ChainOK φ 2 env.e2 a E n) := by
  refine Can.mono (Can.and (Q := fun _ => True) ?_ (randomChainA_walk hS h3 n hE ha).2) fun _ h => h.2
  unfold randomChainA
  refine (chainALoop_can hS h3F h3 he n E none none a hE ha (Or.inl ⟨rfl, rfl⟩)).bind ?_
  rintro ⟨Ps, Es⟩ _
  exact Can.pure trivial

theorem randomChainB_can (hS : Setting φ σ p env) (h3F : (3 : F) ≠ 0) (h3 : (3 : K) ≠ 0) (he : env.e3 ≤ 9998) (n : ℕ) {E : Crv F}
    {a : F} (hE : On E a) (ha : Super φ σ p a) : Can (randomChainB env n E) (ChainOK φ 3 env.e3 a E n) := by
  refine Can.mono (Can.and (Q := fun _ => True) ?_ (randomChainB_walk hS h3 n hE ha).2) fun _ h => h.2
  unfold randomChainB
  refine (chainBLoop_can hS h3F h3 he n E none none a hE ha (Or.inl ⟨rfl, rfl⟩)).bind ?_
  rintro ⟨Ps, Es⟩ _
  exact Can.pure trivial

/-! ### Packing -/

theorem randomOdd_can : Can (randomOdd env) (fun _ => True) :=
  ⟨⟨[], [], [0]⟩, _, trivial, fun _ => rfl⟩

theorem packChainA_can (hS : Setting φ σ p env) : ∀ (Es : List (Crv F)) (Ps : List (Pt F)) {bo : Option (Pt K)} {a a'' : F}
    {G : Pt K → Pt K}, Walk φ 2 env.e2 bo a (Es.zip Ps) a'' G → Super φ σ p a → Can (packChainA env Es Ps) (fun _ => True)
  | [], Ps, bo, a, a'', G, hw, ha => by unfold packChainA; exact Can.pure trivial
  | E :: Es, [], bo, a, a'', G, hw, ha => by unfold packChainA; exact Can.pure trivial
  | E :: Es, k :: Ps, bo, a, a'', G, hw, ha => by
    rw [List.zip_cons_cons] at hw
    cases hw with
    | @cons _ _ a' _ _ _ _ P gF gK b G' hE hk kg hbz hr =>
    unfold packChainA
    refine randomOdd_can.bind ?_
    intro m _
    simp only
    rw [packPoint_ok hS hE ha, lift_ok_bind]
    refine (packChainA_can hS Es Ps hr (kg.super hS ha)).bind ?_
    intro xs _
    exact Can.pure trivial

theorem packChainB_can (hS : Setting φ σ p env) : ∀ (Es : List (Crv F)) (Ps : List (Pt F)) {bo : Option (Pt K)} {a a'' : F}
    {G : Pt K → Pt K}, Walk φ 3 env.e3 bo a (Es.zip Ps) a'' G → Super φ σ p a → Can (packChainB env Es Ps) (fun _ => True)
  | [], Ps, bo, a, a'', G, hw, ha => by unfold packChainB; exact Can.pure trivial
  | E :: Es, [], bo, a, a'', G, hw, ha => by unfold packChainB; exact Can.pure trivial
  | E :: Es, k :: Ps, bo, a, a'', G, hw, ha => by
    rw [List.zip_cons_cons] at hw
    cases hw with
    | @cons _ _ a' _ _ _ _ P gF gK b G' hE hk kg hbz hr =>
    unfold packChainB
    rw [packPoint_ok hS hE ha, lift_ok_bind]
    refine (packChainB_can hS Es Ps hr (kg.super hS ha)).bind ?_
    intro xs _
    exact Can.pure trivial

/-! ### Unpacking -/

theorem Tors.model {ℓ : ℕ} (h2 : (2 : K) ≠ 0) {a : F} (hA : a ^ 2 ≠ 4) {i : Iso F} (hi : ModelOK a i) {b : Pt F}
    (hb : Tors ℓ (A := φ a) (b.map φ)) : Tors ℓ (A := φ i.B) ((evalIso i b).map φ) := by
  have hix := hi.isoX φ hA
  obtain ⟨T, hT, h0, hne⟩ := hb
  obtain ⟨T', hT'⟩ := exists_rep (A := φ i.B) h2 hix.tgt (hix.hom.nz _ (xr_nz T))
  have hz : ∀ n : ℕ, n • T' = 0 ↔ n • T = 0 := fun n => by
    rw [← (hix.hom.nsmul h2 (rep_xr T) hT' n (rep_xr _)).Z_iff, hix.inj, (rep_xr (n • T)).Z_iff]
  refine ⟨T', ?_, (hz ℓ).2 h0, fun h => hne ?_⟩
  · have : (evalIso i b).map φ = isoK φ i (b.map φ) := by rw [map_evalIso]; rfl
    rw [this]
    exact hT'.peq (hix.hom.congr _ _ hT)
  · have := (hz 1).1 (by rw [one_nsmul, h])
    rwa [one_nsmul] at this

theorem FIsog.push_outside (h2 : (2 : K) ≠ 0) {ℓ m e : ℕ} (hℓ : ℓ.Prime) {a a' : F} {gF : Pt F → Pt F} {gK : Pt K → Pt K}
    {P : (W (φ a)).Point} {b : Pt K} (h : FIsog φ ℓ e a a' gF gK P b) {q q' : Pt F} {T : (W (φ a)).Point}
    (hT : Rep (q.map φ) T) (h0 : m • T = 0) (hout : T ∉ AddSubgroup.zmultiples P) (hq : PEq (gF q) q') :
    Tors m (A := φ a') (q'.map φ) := by
  obtain ⟨ψ, hi, hk⟩ := h.isog h2 hℓ
  refine ⟨ψ T, (hi.rep _ _ hT).peq ?_, by rw [← map_nsmul, h0, map_zero], fun hz => hout ?_⟩
  · rw [h.lift]; exact PEq.map φ hq
  · rw [← hk]; exact hz

/-- A packed point that generates a kernel avoiding the direction back. -/
theorem exists_packed (hS : Setting φ σ p env) (h3F : (3 : F) ≠ 0) {ℓ : ℕ} (hℓ : ℓ = 2 ∨ ℓ = 3) (he : expo env ℓ ≤ 9998)
    {a : F} (ha : Super φ σ p a) {avoid : Option (Pt F)} {bo : Option (Pt K)} (hav : AvOK φ ℓ a avoid bo) :
    ∃ (x : F) (P : (W (φ a)).Point), Rep ((unpackPoint x).map φ) P ∧ addOrderOf P = ℓ ^ expo env ℓ ∧
      ∀ b ∈ avoid, ∀ T : (W (φ a)).Point, Rep (b.map φ) T → ℓ • T = 0 → T ≠ 0 → T ∉ AddSubgroup.zmultiples P := by
  obtain ⟨_, k, ⟨P, hk, ho, hout⟩, _⟩ := kernel_can hS h3F hℓ he (on_one a) ha hav
  have ho' : addOrderOf P = ℓ ^ expo env ℓ := ho
  have hz : k.Z ≠ 0 := by
    have := Rep.order_ne hk (prime_of hℓ) (expo_pos hS.good hℓ) ho'
    intro h0; apply this; simp [Pt.map, h0]
  exact ⟨k.X / k.Z, P, hk.peq (PEq.map φ (nz_aff hz)), ho', hout⟩

theorem unpackChainALoop_can (hS : Setting φ σ p env) (h3F : (3 : F) ≠ 0) (he : env.e2 ≤ 9998) : ∀ (n : ℕ)
    (E : Crv F) (back : Pt F), E.C ≠ 0 → Super φ σ p (E.A / E.C) → Tors 2 (A := φ (E.A / E.C)) (back.map φ) →
    ∃ (xs : List F) (E' : Crv F) (back' : Pt F), xs.length = n ∧ unpackChainALoop env xs E back = pure (some (E', back')) ∧
      back'.Z ≠ 0
  | 0, E, back, hC, hs, hb => by
    refine ⟨[], E, back, rfl, rfl, fun hz => ?_⟩
    obtain ⟨T, hT, _, h0⟩ := hb
    exact h0 (hT.Z_iff.1 (by simp [Pt.map, hz]))
  | n + 1, E, back, hC, hs, hb => by
    have h2 := two_map φ hS.two
    obtain ⟨hcm, hmod⟩ := canonicalModelM_ok hS hs
    set i := canonicalModel env E with hi
    have hsB : Super φ σ p i.B := hs.model hS.frob hS.two hmod hS.neg
    have hb' := hb.model h2 hs.1 hmod
    obtain ⟨x, P, hx, ho, hout⟩ := exists_packed hS h3F (ℓ := 2) (Or.inl rfl) he hsB
      (Or.inr ⟨evalIso i back, _, rfl, rfl, PEq.refl _, hb'⟩)
    obtain ⟨E', q', gF, gK, hrun, hC', hq, kg⟩ := runA hS (E := ⟨i.B, 1⟩) (on_one _) hsB hx ho (some (evalIso i back))
    cases q' with
    | none => simp [OptPEq] at hq
    | some back' =>
      obtain ⟨T, hT, h0, hne⟩ := hb'
      have ht := kg.push_outside h2 Nat.prime_two hT h0 (hout _ rfl T hT h0 hne) hq
      obtain ⟨xs, E'', back'', hl, hrun', hz⟩ := unpackChainALoop_can hS h3F he n E' back' hC' (kg.super hS hsB) ht
      refine ⟨x :: xs, E'', back'', by simp [hl], ?_, hz⟩
      unfold unpackChainALoop
      rw [hcm, lift_ok_bind]
      simp only
      rw [hrun, lift_ok_bind]
      exact hrun'

theorem unpackChainBLoop_can (hS : Setting φ σ p env) (h3F : (3 : F) ≠ 0) (he : env.e3 ≤ 9998) : ∀ (n : ℕ)
    (E : Crv F) (back : Pt F), E.C ≠ 0 → Super φ σ p (E.A / E.C) → Tors 3 (A := φ (E.A / E.C)) (back.map φ) →
    ∃ (xs : List F) (E' : Crv F) (back' : Pt F), xs.length = n ∧ unpackChainBLoop env xs E back = pure (some (E', back')) ∧
      back'.Z ≠ 0
  | 0, E, back, hC, hs, hb => by
    refine ⟨[], E, back, rfl, rfl, fun hz => ?_⟩
    obtain ⟨T, hT, _, h0⟩ := hb
    exact h0 (hT.Z_iff.1 (by simp [Pt.map, hz]))
  | n + 1, E, back, hC, hs, hb => by
    have h2 := two_map φ hS.two
    obtain ⟨hcm, hmod⟩ := canonicalModelM_ok hS hs
    set i := canonicalModel env E with hi
    have hsB : Super φ σ p i.B := hs.model hS.frob hS.two hmod hS.neg
    have hb' := hb.model h2 hs.1 hmod
    obtain ⟨x, P, hx, ho, hout⟩ := exists_packed hS h3F (ℓ := 3) (Or.inr rfl) he hsB
      (Or.inr ⟨evalIso i back, _, rfl, rfl, PEq.refl _, hb'⟩)
    obtain ⟨E', q', gF, gK, b, hC', hq, kg, _, hrun, _⟩ := runB hS (E := ⟨i.B, 1⟩) (on_one _) hsB false hx ho
      (some (evalIso i back))
    cases q' with
    | none => simp [OptPEq] at hq
    | some back' =>
      obtain ⟨T, hT, h0, hne⟩ := hb'
      have ht := kg.push_outside h2 Nat.prime_three hT h0 (hout _ rfl T hT h0 hne) hq
      obtain ⟨xs, E'', back'', hl, hrun', hz⟩ := unpackChainBLoop_can hS h3F he n E' back' hC' (kg.super hS hsB) ht
      refine ⟨x :: xs, E'', back'', by simp [hl], ?_, hz⟩
      unfold unpackChainBLoop
      rw [hcm, lift_ok_bind]
      simp only
      rw [hrun rfl]
      exact hrun'

/-- From every curve there are packed chains of every length that `Unpack_Chain_A` accepts. -/
theorem unpackChainA_can (hS : Setting φ σ p env) (h3F : (3 : F) ≠ 0) (h3 : (3 : K) ≠ 0) (he2 : env.e2 ≤ 9998) (po : ProvesOrder)
    (junk : ℕ → Pt F × Pt F) (hpo : po (2 * env.e2) env.e3 = true) (hpo0 : po 0 0 = false) {a : F} (ha : Super φ σ p a) (n : ℕ) :
    ∃ xs : List F, xs.length = n + 1 ∧ Can (unpackChainA env po junk a xs) (fun r => ∃ E, r = some E) := by
  have h2 := two_map φ hS.two
  obtain ⟨x, P, hx, ho, _⟩ := exists_packed hS h3F (ℓ := 2) (Or.inl rfl) he2 ha (bo := none) (Or.inl ⟨rfl, rfl⟩)
  obtain ⟨E', q', gF, gK, hrun, hC, _, kg⟩ := runA hS (on_one a) ha hx ho none
  have htors := kg.back_tors h2 h3 (Or.inl rfl)
  obtain ⟨xs, E'', back', hl, hloop, hz⟩ := unpackChainALoop_can hS h3F he2 n E' ⟨0, 1⟩ hC (kg.super hS ha)
    (by rw [map_zero_one]; exact htors)
  refine ⟨x :: xs, by simp [hl], ?_⟩
  unfold unpackChainA
  refine (checkCurve_can hS h3F po junk (expo_pos hS.good (ℓ := 2) (Or.inl rfl)) (expo_pos hS.good (ℓ := 3) (Or.inr rfl))
    hpo hpo0 ha).bind ?_
  intro _ _
  simp only
  rw [hrun, lift_ok_bind]
  simp only
  rw [hloop]
  refine (Can.pure (Q := fun r => r = some (E'', back')) rfl).bind ?_
  rintro _ rfl
  simp only [hz, if_false]
  exact Can.pure ⟨_, rfl⟩

/-- From every curve there are packed chains of every length that `Unpack_Chain_B` accepts. -/
theorem unpackChainB_can (hS : Setting φ σ p env) (h3F : (3 : F) ≠ 0) (h3 : (3 : K) ≠ 0) (he3 : env.e3 ≤ 9998) (po : ProvesOrder)
    (junk : ℕ → Pt F × Pt F) (hpo : po (2 * env.e2) env.e3 = true) (hpo0 : po 0 0 = false) {a : F} (ha : Super φ σ p a) (n : ℕ) :
    ∃ xs : List F, xs.length = n + 1 ∧ Can (unpackChainB env po junk a xs) (fun r => ∃ E, r = some E) := by
  have h2 := two_map φ hS.two
  obtain ⟨x, P, hx, ho, _⟩ := exists_packed hS h3F (ℓ := 3) (Or.inr rfl) he3 ha (bo := none) (Or.inl ⟨rfl, rfl⟩)
  obtain ⟨E', q', gF, gK, b, hC, _, kg, _, _, hret⟩ := runB hS (on_one a) ha true hx ho none
  have htors := kg.back_tors h2 h3 (Or.inr rfl)
  have hcan := isogenyB_can' hS h3F he3 (on_one a) ha hx ho
  obtain ⟨s, _, ⟨_, b', rfl, hb, _⟩, hs⟩ := hcan.and (hret rfl)
  obtain ⟨xs, E'', back', hl, hloop, hz⟩ := unpackChainBLoop_can hS h3F he3 n E' b' hC (kg.super hS ha) (by
    obtain ⟨T, hT, h0, h1⟩ := htors
    exact ⟨T, hT.peq (PEq.map φ hb), h0, h1⟩)
  refine ⟨x :: xs, by simp [hl], ?_⟩
  unfold unpackChainB
  refine (checkCurve_can hS h3F po junk (expo_pos hS.good (ℓ := 2) (Or.inl rfl)) (expo_pos hS.good (ℓ := 3) (Or.inr rfl))
    hpo hpo0 ha).bind ?_
  intro _ _
  simp only
  refine Can.bind (Q := fun r => r = some (E', q', some b')) ⟨s, _, rfl, hs⟩ ?_
  rintro _ rfl
  simp only
  rw [hloop]
  refine (Can.pure (Q := fun r => r = some (E'', back')) rfl).bind ?_
  rintro _ rfl
  simp only [hz, if_false]
  exact Can.pure ⟨_, rfl⟩

/-! ### Unpacking always can return -/

theorem chain_end_can {ℓ n : ℕ} {a : F} {m : M F (Option (Crv F × Pt F))}
    (h : m = pure none ∨ ∃ E' back', m = pure (some (E', back')) ∧ ChInv φ σ p ℓ n a E' back') :
    Can (do
      match ← m with
      | none => pure none
      | some (E, back) => if back.Z = 0 then pure none else pure (some E) : M F (Option (Crv F))) (fun _ => True) := by
  rcases h with h | ⟨E, b, h, hi⟩
  · rw [h]
    exact Can.pure (a := (none : Option (Crv F))) trivial
  · rw [h]
    change Can (if b.Z = 0 then pure none else pure (some E)) _
    by_cases hz : b.Z = 0
    · simp only [hz, if_true]
      exact Can.pure trivial
    · simp only [hz, if_false]
      exact Can.pure trivial

/-- `Unpack_Chain_A` can return for every chain. -/
theorem unpackChainA_total (hS : Setting φ σ p env) (h3F : (3 : F) ≠ 0) (po : ProvesOrder) (junk : ℕ → Pt F × Pt F)
    (hpo : po (2 * env.e2) env.e3 = true) (hpo0 : po 0 0 = false) {a : F} (ha : Super φ σ p a) {xs : List F} (hne : xs ≠ []) :
    Can (unpackChainA env po junk a xs) (fun _ => True) := by
  cases xs with
  | nil => exact absurd rfl hne
  | cons x xs =>
  have ha' : Super φ σ p ((⟨a, 1⟩ : Crv F).A / (⟨a, 1⟩ : Crv F).C) := by simpa using ha
  obtain ⟨P, hP⟩ := exists_rep_unpack hS (a := (⟨a, 1⟩ : Crv F).A / (⟨a, 1⟩ : Crv F).C) ha'.1 x
  obtain ⟨hrej, hacc⟩ := isogenyA_ok φ hS.two hS.sqrt hS.good (E := ⟨a, 1⟩) one_ne_zero ha'.1
    (ha'.full4 hS.frob hS.two) (unpackPoint x) none hP
  unfold unpackChainA
  simp only
  refine (checkCurve_can hS h3F po junk (expo_pos hS.good (ℓ := 2) (Or.inl rfl)) (expo_pos hS.good (ℓ := 3) (Or.inr rfl))
    hpo hpo0 ha).bind ?_
  intro _ _
  by_cases ho : addOrderOf P = 2 ^ env.e2
  · obtain ⟨E', q', gF, gK, hok, hC, _, hF⟩ := hacc ho
    rw [hok]
    simp only [lift_ok_bind]
    obtain ⟨P', hF'⟩ := hF.cast (B := a) (by simp)
    have hinv := ChInv.first hS ha hC hF' (nz_zero_one) (by rw [map_zero_one]; exact PEq.refl _)
    exact chain_end_can (unpackChainALoop_spec hS xs _ E' ⟨0, 1⟩ hinv)
  · rw [hrej ho]
    exact Can.pure trivial

/-- `Unpack_Chain_B` can return for every chain. -/
theorem unpackChainB_total (hS : Setting φ σ p env) (h3F : (3 : F) ≠ 0) (he3 : env.e3 ≤ 9998) (po : ProvesOrder)
    (junk : ℕ → Pt F × Pt F) (hpo : po (2 * env.e2) env.e3 = true) (hpo0 : po 0 0 = false) {a : F} (ha : Super φ σ p a)
    {xs : List F} (hne : xs ≠ []) : Can (unpackChainB env po junk a xs) (fun _ => True) := by
  cases xs with
  | nil => exact absurd rfl hne
  | cons x xs =>
  have ha' : Super φ σ p ((⟨a, 1⟩ : Crv F).A / (⟨a, 1⟩ : Crv F).C) := by simpa using ha
  obtain ⟨P, hP⟩ := exists_rep_unpack hS (a := (⟨a, 1⟩ : Crv F).A / (⟨a, 1⟩ : Crv F).C) ha'.1 x
  obtain ⟨hrej, hacc⟩ := isogenyB_ok φ hS.two hS.good (E := ⟨a, 1⟩) one_ne_zero ha'.1
    true (unpackPoint x) none hP
  unfold unpackChainB
  simp only
  refine (checkCurve_can hS h3F po junk (expo_pos hS.good (ℓ := 2) (Or.inl rfl)) (expo_pos hS.good (ℓ := 3) (Or.inr rfl))
    hpo hpo0 ha).bind ?_
  intro _ _
  by_cases ho : addOrderOf P = 3 ^ env.e3
  · obtain ⟨E', q', gF, gK, b, hC, _, hF, hub, _, hok⟩ := hacc ho
    obtain ⟨P', hF'⟩ := hF.cast (B := a) (by simp)
    refine ((isogenyB_can hS h3F he3 one_ne_zero ha' _ none hP ho).and (hok rfl)).bind ?_
    rintro _ ⟨_, b', rfl, hb, hbnz⟩
    have hinv := ChInv.first hS ha hC hF' hbnz (PEq.map φ hb)
    exact chain_end_can (unpackChainBLoop_spec hS xs _ E' b' hinv)
  · rw [hrej ho]
    exact Can.pure trivial

end Secuer.Curve
