import Verif.Curve.SuperCheck

/-!
# What an unpacked chain establishes

On a curve where Frobenius is `-p`, `Unpack_Chain_A` and `Unpack_Chain_B` have no undefined behaviour, and if
they accept, the composition of all steps is a cyclic isogeny of degree `2^(e2 * len)`, `3^(e3 * len)` to the
curve they return, defined over the base field.
-/

namespace Secuer.Curve

open Secuer.Mont

variable {F K : Type} [Field F] [DecidableEq F] [Field K] [DecidableEq K] [IsAlgClosed K]
variable (φ : F →+* K) (σ : K →+* K) (p : ℕ) (env : Env F)

/-- The standing assumptions on the base field and the parameters. -/
structure Setting : Prop where
  frob : FrobData φ σ p
  two : (2 : F) ≠ 0
  neg : IsSquare (-1 : F)
  sqrt : SqrtOK env
  good : env.toIsoParams.Good
  order : p + 1 = 2 ^ env.e2 * 3 ^ env.e3

variable {φ σ p env}

/-- An isogeny over `F` preserves `Super`. -/
theorem FIsog.super (hS : Setting φ σ p env) {ℓ n : ℕ} {a a' : F} {gF : Pt F → Pt F} {gK : Pt K → Pt K}
    {P : (W (φ a)).Point} {b : Pt K} (h : FIsog φ ℓ n a a' gF gK P b) (hs : Super φ σ p a) : Super φ σ p a' := by
  have ht : a' ^ 2 ≠ 4 := by
    intro h4
    apply h.cyc.tgt
    rw [← map_pow, h4, map_ofNat]
  exact (hs.x.trans hS.frob hS.two h.cyc.hom h.defd h.cyc.surj ht).super hS.frob hS.two (h.sq (hs.sq hS.frob hS.two))

variable (φ σ p)

/-- State of the chain loops: `n` steps of degree `ℓ^e` have been taken from the curve `a₀`; either the kernel of
the composition is cyclic and `back` is the x-coordinate of the direction leading back, or backtracking has
been recorded. -/
structure ChInv (ℓ n : ℕ) (a₀ : F) (E : Crv F) (back : Pt F) : Prop where
  C : E.C ≠ 0
  sup : Super φ σ p (E.A / E.C)
  nz : Nz back
  cyc : back.Z = 0 ∨ ∃ gK P b, Cyc ℓ n (φ a₀) (φ (E.A / E.C)) gK P b ∧ DefOver φ (ℓ ^ n) gK ∧ PEq b (back.map φ)

variable {φ σ p}

theorem XHom.inf {A A' : K} {g : Pt K → Pt K} (h2 : (2 : K) ≠ 0) (h : XHom A A' g) {q : Pt K} (hq : Nz q) (hz : q.Z = 0) :
    (g q).Z = 0 := by
  have hr : Rep q (0 : (W A).Point) := (rep_zero_iff q).2 ⟨hz, hq.resolve_right (not_not.2 hz)⟩
  have has := hr.as h2 hr (by rw [add_zero]; exact hr) (by rw [sub_zero]; exact hr)
  obtain ⟨c, hc, _, _, e2⟩ := h.as _ _ _ _ has
  have hb : b2 (g q) (g q) = 0 := by unfold b2; ring
  rw [hb] at e2
  have := e2.symm
  rcases mul_eq_zero.1 this with h' | h'
  · exact absurd h' hc
  · exact mul_self_eq_zero.1 h'

/-- One step: change to the canonical model and then an isogeny. -/
theorem ChInv.step (hS : Setting φ σ p env) {ℓ e n : ℕ} (hℓ : ℓ.Prime) {a₀ : F} {E E' : Crv F} {back back' : Pt F}
    {i : Iso F} {gF : Pt F → Pt F} {gK : Pt K → Pt K} {P₂ : (W (φ i.B)).Point} {b₂ : Pt K}
    (h : ChInv φ σ p ℓ n a₀ E back) (hi : ModelOK (E.A / E.C) i) (hC : E'.C ≠ 0)
    (hF : FIsog φ ℓ e i.B (E'.A / E'.C) gF gK P₂ b₂) (hb : PEq (gF (evalIso i back)) back') :
    ChInv φ σ p ℓ (n + e) a₀ E' back' := by
  have h2 := two_map φ hS.two
  have hsB : Super φ σ p i.B := h.sup.model hS.frob hS.two hi hS.neg
  have hix := hi.isoX φ h.sup.1
  have hmap : (gF (evalIso i back)).map φ = gK (isoK φ i (back.map φ)) := by
    rw [← hF.lift, map_evalIso]; rfl
  have hnzK : Nz (gK (isoK φ i (back.map φ))) := hF.cyc.hom.nz _ (hix.hom.nz _ ((nz_map φ).2 h.nz))
  have hpe : PEq (gK (isoK φ i (back.map φ))) (back'.map φ) := hmap ▸ PEq.map φ hb
  refine ⟨hC, hF.super hS hsB, (nz_map φ).1 (hpe.nz hnzK), ?_⟩
  rcases h.cyc with hz | ⟨fK, P, b, hf, hdef, hpb⟩
  · left
    have hz' : (isoK φ i (back.map φ)).Z = 0 := by
      rw [hix.inj]; simp [Pt.map, hz]
    have := XHom.inf h2 hF.cyc.hom (hix.hom.nz _ ((nz_map φ).2 h.nz)) hz'
    rw [← hpe.Z_iff] at this
    simpa [Pt.map] using this
  · by_cases hz : back'.Z = 0
    · exact Or.inl hz
    right
    obtain ⟨q, hq, hqP⟩ := hix.surj (xr P₂) (xr_nz _)
    obtain ⟨R, hR⟩ := exists_rep h2 hix.src hq
    have hiR : Rep (isoK φ i (xr R)) P₂ := (PEq.symm hqP).trans (hix.hom.congr _ _ hR).symm
    have hg := Cyc.pre_iso h2 hix hF.cyc hiR
    have hpe' : PEq (gK (isoK φ i b)) (back'.map φ) :=
      (hF.cyc.hom.congr _ _ (hix.hom.congr _ _ hpb)).trans hpe
    have hbz : (gK (isoK φ i b)).Z ≠ 0 := by
      intro h0
      apply hz
      have := hpe'.Z_iff.2 h0
      simpa [Pt.map] using this
    obtain ⟨P', hP', _⟩ := Cyc.comp_back hℓ h2 hf hg hbz
    have hd := (hF.defd.comp φ (defOver_isoK φ i)).comp φ hdef
    rw [one_mul, ← pow_add] at hd
    exact ⟨_, P', _, hP', hd, hpe'⟩

/-- First step of a chain. -/
theorem ChInv.first (hS : Setting φ σ p env) {ℓ e : ℕ} {a₀ : F} {E' : Crv F} {back : Pt F}
    {gF : Pt F → Pt F} {gK : Pt K → Pt K} {P : (W (φ a₀)).Point} {b : Pt K} (h₀ : Super φ σ p a₀)
    (hC : E'.C ≠ 0) (hF : FIsog φ ℓ e a₀ (E'.A / E'.C) gF gK P b) (hnz : Nz back) (hb : PEq b (back.map φ)) :
    ChInv φ σ p ℓ e a₀ E' back :=
  ⟨hC, hF.super hS h₀, hnz, Or.inr ⟨_, _, _, hF.cyc, hF.defd, hb⟩⟩

theorem canonicalModelM_ok (hS : Setting φ σ p env) {E : Crv F} (hs : Super φ σ p (E.A / E.C)) :
    canonicalModelM env E = .ok (canonicalModel env E) ∧ ModelOK (E.A / E.C) (canonicalModel env E) := by
  have h4 := hs.full4 hS.frob hS.two
  refine ⟨?_, allModels_ok hS.sqrt hS.two hs.1 h4 _ (canonicalModel_mem E)⟩
  unfold canonicalModelM
  rw [allModelsUB_false hS.sqrt hS.two hs.1 h4]
  rfl

theorem exists_rep_unpack (hS : Setting φ σ p env) {a : F} (ha : a ^ 2 ≠ 4) (x : F) :
    ∃ P : (W (φ a)).Point, Rep ((unpackPoint x).map φ) P :=
  exists_rep (two_map φ hS.two) (sq_ne_four_map φ ha) ((nz_map φ).2 (Or.inr one_ne_zero))

theorem lift_ok_bind {α β : Type} (a : α) (k : α → M F β) : (M.lift (.ok a) >>= k) = k a := rfl

theorem unpackChainALoop_spec (hS : Setting φ σ p env) {a₀ : F} : ∀ (xs : List F) (n : ℕ) (E : Crv F) (back : Pt F),
    ChInv φ σ p 2 n a₀ E back →
      (unpackChainALoop env xs E back = pure none ∨ ∃ E' back', unpackChainALoop env xs E back = pure (some (E', back')) ∧
        ChInv φ σ p 2 (n + env.e2 * xs.length) a₀ E' back')
  | [], n, E, back, h => Or.inr ⟨E, back, rfl, by simpa using h⟩
  | x :: xs, n, E, back, h => by
    obtain ⟨hcm, hmod⟩ := canonicalModelM_ok hS h.sup
    unfold unpackChainALoop
    rw [hcm, lift_ok_bind]
    simp only
    set i := canonicalModel env E
    have hsB : Super φ σ p i.B := h.sup.model hS.frob hS.two hmod hS.neg
    have hsB' : Super φ σ p ((⟨i.B, 1⟩ : Crv F).A / (⟨i.B, 1⟩ : Crv F).C) := by simpa using hsB
    obtain ⟨P₂, hP₂⟩ := exists_rep_unpack hS (a := (⟨i.B, 1⟩ : Crv F).A / (⟨i.B, 1⟩ : Crv F).C) hsB'.1 x
    obtain ⟨hrej, hacc⟩ := isogenyA_ok φ hS.two hS.sqrt hS.good (E := ⟨i.B, 1⟩) one_ne_zero hsB'.1
      (hsB'.full4 hS.frob hS.two) (unpackPoint x) (some (evalIso i back)) hP₂
    by_cases ho : addOrderOf P₂ = 2 ^ env.e2
    · obtain ⟨E', q', gF, gK, hok, hC, hq', hF⟩ := hacc ho
      rw [hok, lift_ok_bind]
      cases q' with
      | none => simp [OptPEq] at hq'
      | some back' =>
        simp only
        have hst : ChInv φ σ p 2 (n + env.e2) a₀ E' back' := by
          have key : ∀ (B : F), B = i.B → ∀ (P₂ : (W (φ B)).Point),
              FIsog φ 2 env.e2 B (E'.A / E'.C) gF gK P₂ ⟨0, 1⟩ →
              ∃ P₂ : (W (φ i.B)).Point, FIsog φ 2 env.e2 i.B (E'.A / E'.C) gF gK P₂ ⟨0, 1⟩ := by
            rintro B rfl P₂ h; exact ⟨P₂, h⟩
          obtain ⟨P₂', hF'⟩ := key _ (by simp) P₂ hF
          exact h.step hS Nat.prime_two hmod hC hF' hq'
        rcases unpackChainALoop_spec hS xs _ E' back' hst with h' | ⟨E'', b'', h', hi'⟩
        · exact Or.inl h'
        · refine Or.inr ⟨E'', b'', h', ?_⟩
          have : n + env.e2 * (x :: xs).length = n + env.e2 + env.e2 * xs.length := by
            rw [List.length_cons]; ring
          rw [this]; exact hi'
    · rw [hrej ho, lift_ok_bind]
      exact Or.inl rfl

theorem unpackChainBLoop_spec (hS : Setting φ σ p env) {a₀ : F} : ∀ (xs : List F) (n : ℕ) (E : Crv F) (back : Pt F),
    ChInv φ σ p 3 n a₀ E back →
      (unpackChainBLoop env xs E back = pure none ∨ ∃ E' back', unpackChainBLoop env xs E back = pure (some (E', back')) ∧
        ChInv φ σ p 3 (n + env.e3 * xs.length) a₀ E' back')
  | [], n, E, back, h => Or.inr ⟨E, back, rfl, by simpa using h⟩
  | x :: xs, n, E, back, h => by
    obtain ⟨hcm, hmod⟩ := canonicalModelM_ok hS h.sup
    unfold unpackChainBLoop
    rw [hcm, lift_ok_bind]
    simp only
    set i := canonicalModel env E
    have hsB : Super φ σ p i.B := h.sup.model hS.frob hS.two hmod hS.neg
    have hsB' : Super φ σ p ((⟨i.B, 1⟩ : Crv F).A / (⟨i.B, 1⟩ : Crv F).C) := by simpa using hsB
    obtain ⟨P₂, hP₂⟩ := exists_rep_unpack hS (a := (⟨i.B, 1⟩ : Crv F).A / (⟨i.B, 1⟩ : Crv F).C) hsB'.1 x
    obtain ⟨hrej, hacc⟩ := isogenyB_ok φ hS.two hS.good (E := ⟨i.B, 1⟩) one_ne_zero hsB'.1
      false (unpackPoint x) (some (evalIso i back)) hP₂
    by_cases ho : addOrderOf P₂ = 3 ^ env.e3
    · obtain ⟨E', q', gF, gK, b, hC, hq', hF, _, hok, _⟩ := hacc ho
      rw [hok rfl]
      change _ ∨ _
      cases q' with
      | none => simp [OptPEq] at hq'
      | some back' =>
        have hst : ChInv φ σ p 3 (n + env.e3) a₀ E' back' := by
          have key : ∀ (B : F), B = i.B → ∀ (P₂ : (W (φ B)).Point),
              FIsog φ 3 env.e3 B (E'.A / E'.C) gF gK P₂ (b.map φ) →
              ∃ P₂ : (W (φ i.B)).Point, FIsog φ 3 env.e3 i.B (E'.A / E'.C) gF gK P₂ (b.map φ) := by
            rintro B rfl P₂ h; exact ⟨P₂, h⟩
          obtain ⟨P₂', hF'⟩ := key _ (by simp) P₂ hF
          exact h.step hS Nat.prime_three hmod hC hF' hq'
        rcases unpackChainBLoop_spec hS xs _ E' back' hst with h' | ⟨E'', b'', h', hi'⟩
        · exact Or.inl h'
        · refine Or.inr ⟨E'', b'', h', ?_⟩
          have : n + env.e3 * (x :: xs).length = n + env.e3 + env.e3 * xs.length := by
            rw [List.length_cons]; ring
          rw [this]; exact hi'
    · rw [hrej ho]
      exact Or.inl rfl

/-- What an accepted chain shows: a cyclic isogeny of degree `ℓ^n` over `F` to a curve of the same kind. -/
def ChainTo (φ : F →+* K) (σ : K →+* K) (p ℓ n : ℕ) (a₀ : F) (E : Crv F) : Prop :=
  E.C ≠ 0 ∧ Super φ σ p (E.A / E.C) ∧
    ∃ gK P b, Cyc ℓ n (φ a₀) (φ (E.A / E.C)) gK P b ∧ DefOver φ (ℓ ^ n) gK

theorem ChInv.chainTo {ℓ n : ℕ} {a₀ : F} {E : Crv F} {back : Pt F} (h : ChInv φ σ p ℓ n a₀ E back)
    (hz : back.Z ≠ 0) : ChainTo φ σ p ℓ n a₀ E := by
  obtain ⟨gK, P, b, hc, hd, _⟩ := h.cyc.resolve_left hz
  exact ⟨h.C, h.sup, gK, P, b, hc, hd⟩

theorem nz_zero_one : Nz (⟨0, 1⟩ : Pt F) := Or.inr one_ne_zero

theorem map_zero_one : (⟨0, 1⟩ : Pt F).map φ = ⟨0, 1⟩ := by simp [Pt.map]

theorem FIsog.cast {ℓ n : ℕ} {a a' B : F} {gF : Pt F → Pt F} {gK : Pt K → Pt K}
    {P : (W (φ a)).Point} {b : Pt K} (h : FIsog φ ℓ n a a' gF gK P b) (hB : a = B) :
    ∃ P' : (W (φ B)).Point, FIsog φ ℓ n B a' gF gK P' b := by
  subst hB; exact ⟨P, h⟩

theorem bindBoth {α β : Type} {m : M F α} {k : α → M F β} {Q : α → Prop} {R : β → Prop} (hm : NoUB m)
    (hQ : Ret m Q) (hk : ∀ a, Q a → NoUB (k a) ∧ Ret (k a) R) : NoUB (m >>= k) ∧ Ret (m >>= k) R :=
  ⟨NoUB.bind hm Q hQ fun a h => (hk a h).1, Ret.bind hQ fun a h => (hk a h).2⟩

theorem bindCheck {β : Type} (po : ProvesOrder) (junk : ℕ → Pt F × Pt F) (E : Crv F) {m : M F β} {R : β → Prop}
    (h : NoUB m ∧ Ret m R) :
    NoUB (checkCurve env po junk E >>= fun _ => m) ∧ Ret (checkCurve env po junk E >>= fun _ => m) R :=
  bindBoth (checkCurve_noUB po junk _) (Q := fun _ => True) (fun _ _ _ _ => trivial) (fun _ _ => h)

theorem chain_end {ℓ n : ℕ} {a : F} {m : M F (Option (Crv F × Pt F))}
    (h : m = pure none ∨ ∃ E' back', m = pure (some (E', back')) ∧ ChInv φ σ p ℓ n a E' back') :
    NoUB (do
      match ← m with
      | none => pure none
      | some (E, back) => if back.Z = 0 then pure none else pure (some E) : M F (Option (Crv F))) ∧
    Ret (do
      match ← m with
      | none => pure none
      | some (E, back) => if back.Z = 0 then pure none else pure (some E) : M F (Option (Crv F)))
      (fun r => ∀ E', r = some E' → ChainTo φ σ p ℓ n a E') := by
  rcases h with h | ⟨E, b, h, hi⟩
  · rw [h]
    exact ⟨NoUB.pure' (none : Option (Crv F)), Ret.pure (a := (none : Option (Crv F))) (by simp)⟩
  · rw [h]
    change NoUB (if b.Z = 0 then pure none else pure (some E)) ∧ Ret (if b.Z = 0 then pure none else pure (some E)) _
    by_cases hz : b.Z = 0
    · simp only [hz, if_true]
      exact ⟨NoUB.pure' _, Ret.pure (by simp)⟩
    · simp only [hz, if_false]
      refine ⟨NoUB.pure' _, Ret.pure ?_⟩
      rintro _ ⟨rfl⟩
      exact hi.chainTo hz

theorem unpackChainA_spec (hS : Setting φ σ p env) (po : ProvesOrder) (junk : ℕ → Pt F × Pt F) {a : F}
    (ha : Super φ σ p a) {xs : List F} (hne : xs ≠ []) :
    NoUB (unpackChainA env po junk a xs) ∧
    Ret (unpackChainA env po junk a xs) (fun r => ∀ E', r = some E' →
      ChainTo φ σ p 2 (env.e2 * xs.length) a E') := by
  cases xs with
  | nil => exact absurd rfl hne
  | cons x xs =>
  have ha' : Super φ σ p ((⟨a, 1⟩ : Crv F).A / (⟨a, 1⟩ : Crv F).C) := by simpa using ha
  obtain ⟨P, hP⟩ := exists_rep_unpack hS (a := (⟨a, 1⟩ : Crv F).A / (⟨a, 1⟩ : Crv F).C) ha'.1 x
  obtain ⟨hrej, hacc⟩ := isogenyA_ok φ hS.two hS.sqrt hS.good (E := ⟨a, 1⟩) one_ne_zero ha'.1
    (ha'.full4 hS.frob hS.two) (unpackPoint x) none hP
  unfold unpackChainA
  simp only
  refine bindCheck po junk _ ?_
  by_cases ho : addOrderOf P = 2 ^ env.e2
  · obtain ⟨E', q', gF, gK, hok, hC, _, hF⟩ := hacc ho
    rw [hok]
    simp only [lift_ok_bind]
    obtain ⟨P', hF'⟩ := hF.cast (B := a) (by simp)
    have hinv := ChInv.first hS ha hC hF' (nz_zero_one) (by rw [map_zero_one]; exact PEq.refl _)
    have hlen : env.e2 * (x :: xs).length = env.e2 + env.e2 * xs.length := by rw [List.length_cons]; ring
    rw [hlen]
    exact chain_end (unpackChainALoop_spec hS xs _ E' ⟨0, 1⟩ hinv)
  · rw [hrej ho]
    exact ⟨NoUB.pure' _, Ret.pure (by simp)⟩

theorem unpackChainB_spec (hS : Setting φ σ p env) (po : ProvesOrder) (junk : ℕ → Pt F × Pt F) {a : F}
    (ha : Super φ σ p a) {xs : List F} (hne : xs ≠ []) :
    NoUB (unpackChainB env po junk a xs) ∧
    Ret (unpackChainB env po junk a xs) (fun r => ∀ E', r = some E' →
      ChainTo φ σ p 3 (env.e3 * xs.length) a E') := by
  cases xs with
  | nil => exact absurd rfl hne
  | cons x xs =>
  have ha' : Super φ σ p ((⟨a, 1⟩ : Crv F).A / (⟨a, 1⟩ : Crv F).C) := by simpa using ha
  obtain ⟨P, hP⟩ := exists_rep_unpack hS (a := (⟨a, 1⟩ : Crv F).A / (⟨a, 1⟩ : Crv F).C) ha'.1 x
  obtain ⟨hrej, hacc⟩ := isogenyB_ok φ hS.two hS.good (E := ⟨a, 1⟩) one_ne_zero ha'.1
    true (unpackPoint x) none hP
  unfold unpackChainB
  simp only
  refine bindCheck po junk _ ?_
  by_cases ho : addOrderOf P = 3 ^ env.e3
  · obtain ⟨E', q', gF, gK, b, hC, _, hF, hub, _, hok⟩ := hacc ho
    obtain ⟨P', hF'⟩ := hF.cast (B := a) (by simp)
    have hlen : env.e3 * (x :: xs).length = env.e3 + env.e3 * xs.length := by rw [List.length_cons]; ring
    rw [hlen]
    refine bindBoth hub (hok rfl) ?_
    rintro _ ⟨b', rfl, hb, hbnz⟩
    have hinv := ChInv.first hS ha hC hF' hbnz (PEq.map φ hb)
    exact chain_end (unpackChainBLoop_spec hS xs _ E' b' hinv)
  · rw [hrej ho]
    exact ⟨NoUB.pure' _, Ret.pure (by simp)⟩

end Secuer.Curve
